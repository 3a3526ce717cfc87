import Verif.Props.Ready
/-!
# Damage that a tar extraction does not notice (C82)
-/

namespace Savior
open FSink

/-- A small tar archive (in the toy format), gzipped, with a wrong checksum and length at the end. -/
def gzDamaged : List Byte := [31, 139, 8, 0, 0, 0, 0, 0, 0, 255] ++ (storedBlock true toyStream ++ [1, 2, 3, 4, 0, 0, 0, 0])

/-- An extraction of it into memory. -/
def gzDamagedRun (eg : Bool) : Except Err (List Entry) × (wrapM gzipCfg (gunzip eg) seekM 20000).St × XW (memSink noFaults) nopCons :=
  tarResume (wrapM gzipCfg (gunzip eg) seekM 20000) (toyTar true) (fun _ => (0, 1)) 20000 (memSink noFaults) nopCons none
    (Wrap.new (gunzip eg) seekM (Seek.newWithSize ⟨gzDamaged, 0, fun _ => ⟨100000, false, none⟩, 0⟩ gzDamaged.length)) memEmpty ()

/-- It succeeds, and leaves "a" and "b" with their content. -/
def gzDamagedFine (eg : Bool) : Bool :=
  match gzDamagedRun eg with
  | (.ok es, _, w) => es.length = 2 ∧ w.sink.nodes (cs ['a']) = some (.file [10, 20, 30]) ∧ w.sink.nodes (cs ['b']) = some (.file [5, 6])
  | _ => false

/-- **C82**: what success does not say. A ".tar.gz" whose checksum and length are wrong is extracted without an error, whether
the decoder reports errors early or late: the extractor stops reading at the end-of-archive marker, so what comes after it is not
looked at, and an error that comes with the last of the bytes wanted is dropped. -/
theorem C82_gzip_damage_unnoticed (eg : Bool) :
    ((gunzip eg).decode (gunzip eg).start gzDamaged true).2 = false ∧ gzDamagedFine eg = true := by
  cases eg <;> decide +kernel

end Savior
