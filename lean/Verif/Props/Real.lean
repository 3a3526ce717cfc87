import Verif.Gzip
import Verif.Props.Make
import Verif.Props.Decompress
/-!
# The theorems at work on real formats

Instances with DEFLATE (`Inflate.lean`) and gzip (`Gzip.lean`), and counterexamples that are real DEFLATE streams.
-/

namespace Savior

/-- Six bytes in a fixed block that ends with a byte, an empty stored block (a "sync flush"), "ab" in a last fixed block. -/
def syncFlushed : List Byte := [250, 255, 239, 239, 159, 223, 191, 0, 0, 0, 0, 255, 255, 75, 76, 2, 0]

theorem syncFlushed_content : (inflate true).decode (inflate true).start syncFlushed true = ([255, 254, 253, 252, 251, 250, 97, 98], true) := by decide +kernel

/-- The results of reading bytes from a flate source. -/
def flateBytes (ops : List SrcOp) (z : List Byte) : List (Option (List Byte × Option Err)) :=
  (srcRun (wrapM flateCfg (inflate true) seekM 100) (fun _ => none) ops (Wrap.new (inflate true) seekM (Seek.fromBytes z)) []).1.map
    fun x => match x.2 with | .data bs e _ => some (bs, e) | .byte b e _ => some ([b], e) | _ => none

/-- **C23 is false for DEFLATE**, even if the consumer accepts every save: with two saves requested around a sync flush, `ReadByte` returns
the byte before it, 250, a second time. -/
theorem C23_false_deflate :
    flateBytes ([.setSSC true, .resumeNil] ++ List.replicate 5 .readByte ++ [.wantSave, .readByte, .wantSave, .readByte, .readByte, .readByte]) syncFlushed =
      [none, none, some ([255], none), some ([254], none), some ([253], none), some ([252], none), some ([251], none), none, some ([250], none), none,
        some ([250], none), some ([97], none), some ([98], none)] := by decide +kernel

/-- Six bytes in a last fixed block that ends with a byte. -/
def endsTogether : List Byte := [251, 255, 239, 239, 159, 223, 191, 0]

/-- **C23 is false for DEFLATE (2)**, no save requested: when the last byte comes together with EOF, `ReadByte` reports EOF,
which by the contract of `io.ByteReader` means that there was no byte. -/
theorem C23_false_deflate_end : ((inflate true).decode (inflate true).start endsTogether true).1 = [255, 254, 253, 252, 251, 250] ∧
    (flateBytes ([.resumeNil] ++ List.replicate 6 .readByte) endsTogether).getLast? = some (some ([250], some .eof)) ∧
    (flateBytes ([.resumeNil] ++ List.replicate 6 (.read 0)) endsTogether).getLast? = some (some ([250], some .eof)) := by decide +kernel

section
variable {lead : Nat → List Byte} {tail : List Byte} {order : List CItem}

/-- **C76** (zip, the whole test, with DEFLATE): no assumption about the decompressor is left. The compressor is the one that stores. -/
theorem C76_deflate_passes (eg : Bool) (sink : CSt) (hnd : sink.items.Pairwise (fun a b => a.path ≠ b.path)) (hs : NoSlash sink.items)
    (hne : ∀ it ∈ sink.items, it.kind = .file → it.data ≠ []) (hp : order.Perm sink.items) {F : Nat}
    (hF : ∀ z ∈ (makeZip storedEnc lead tail order).files, zipBudget (makeZip storedEnc lead tail order) (inflate eg) z ≤ F)
    (envs : Nat → ZEnv) (hh : ∀ n, (envs n).Honest (makeZip storedEnc lead tail order)) (he : ∀ n, (envs n).Good (makeZip storedEnc lead tail order)) (th : Int) (Q : Asker) (x : Q.St) :
    harness (zipTestRun (makeZip storedEnc lead tail order) envs (inflate eg) F th Q) sink x = .pass ∨
      harness (zipTestRun (makeZip storedEnc lead tail order) envs (inflate eg) F th Q) sink x = .tooMany :=
  (C76_zip_passes (inflate_law eg) (inflate_exact eg) (fun _ _ => rfl) (storedEnc_ok eg true) sink hnd hs hne hp hF envs hh he th Q x).1

end

/-- A zip archive with one member, deflated by zlib with two flushes. -/
def flushedZip : Archive := ⟨zlibFlushed, [⟨[97], .deflate, false, 20, 9, 0o644, 0, ([], true)⟩]⟩

theorem flushedZip_wf : ZipWF flushedZip (inflate true) 1000 where
  law := inflate_law true
  csize := by decide
  budget := by decide +kernel

/-- What a run on the memory sink ends with, and where it saved: the write offsets of the checkpoints. -/
def flushedRun (ck : Option ECkpt) (k : MemSt) (u : List (Except Err Action)) : XW (memSink noFaults) listCons × Option Err :=
  ((zipResume flushedZip toyEnv (inflate true) 1000 (memSink noFaults) listCons ck k u).2,
    match (zipResume flushedZip toyEnv (inflate true) 1000 (memSink noFaults) listCons ck k u).1 with | .ok _ => none | .error x => some x)

/-- Stopped at the first checkpoint: the block boundary after "abc". -/
example : (flushedRun none memEmpty [.ok .stop]).2 = some .stop ∧ ((lastSave (flushedRun none memEmpty [.ok .stop]).1.log).map ckPos) = some (0, 3) := by decide +kernel

/-- The second run, in a new process, from that checkpoint: the window and the bits of the last byte are in it. The member is extracted. -/
example : (flushedRun (lastSave (flushedRun none memEmpty [.ok .stop]).1.log) ((memSink noFaults).reborn (flushedRun none memEmpty [.ok .stop]).1.sink) []).2 = none ∧
    MemSt.nodes (flushedRun (lastSave (flushedRun none memEmpty [.ok .stop]).1.log) ((memSink noFaults).reborn (flushedRun none memEmpty [.ok .stop]).1.sink) []).1.sink [97] =
      some (PNode.file [97, 98, 99, 97, 98, 99, 97, 98, 99]) := by decide +kernel

end Savior
