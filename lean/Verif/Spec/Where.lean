import Verif.Spec.Tar
/-!
# What a checkpoint says about where it was taken

The member an extraction is at, and how much of it has been extracted, told from the archive alone.
-/

namespace Savior

/-- Writers advance `WriteOffset` by exactly what they are given when they report success, except those opened under names
that are not counted (folder_sink.go:153-156: ignored names). -/
structure Counts (K : SinkM) (counts : Str → Bool) where
  /-- the current writer counts -/
  on : K.St → Bool
  getWriter : ∀ e s, (K.getWriter e s).1 = none → on (K.getWriter e s).2 = counts e.path
  write : ∀ bs s, (K.write bs s).1.2.2 = none → (K.write bs s).1.2.1 = (if on s then (bs.length : Int) else 0) ∧ on (K.write bs s).2 = on s
  sync : ∀ s, on (K.sync s).2 = on s

/-- The sinks that count all names but those given. -/
def SinkM.CountsBy (counts : Str → Bool) (K : SinkM) : Prop := Nonempty (Counts K counts)

/-- The write offset after `n` bytes of a member. -/
def countedOff (counts : Str → Bool) (name : Str) (n : Nat) : Int := if counts name then n else 0

/-- The entry of a tar member of which `n` bytes have been written. -/
def THdr.after (counts : Str → Bool) (h : THdr) (n : Nat) : Entry := { h.recorded with woff := countedOff counts h.name n }

/-- The result entries of the regular files among `ms`, all of them written completely. -/
def writtenFiles (counts : Str → Bool) (ms : List (THdr × List Byte)) : List Entry :=
  (ms.filter fun m => m.1.typ = .reg).map fun m => m.1.after counts m.2.length

/-- In the stream `Y`, the members `ms` come first, then a regular file with header `h`, whose data begin at offset
`start` and are `size` bytes long. -/
def TarFileAfter (T : TarFmt) (clean : Bool) (Y : List Byte) (ms : List (THdr × List Byte)) (h : THdr) (start size : Nat) : Prop :=
  ∃ st1 Y1 st2 Y2, TarPath T clean T.start Y ms st1 Y1 ∧ nextSpec T clean st1 Y1 = some (some (h, st2, Y2)) ∧ h.typ = .reg ∧
    Y2 = Y.drop start ∧ start ≤ Y.length ∧ size = T.rem st2

/-- Checkpoints handed to some save consumer by the last of a number of runs into sinks satisfying `Q`, the first of
which started from nothing and each later one from a checkpoint saved by the previous one. -/
inductive TarSavedIn (Y : List Byte) (clean : Bool) (Ck : Ckpt → Nat → Prop) (F : Nat) (T : TarFmt) (Q : SinkM → Prop) : ECkpt → Prop
  | first (X : TarSrc Y clean Ck F) (pr : Ckpt → Int × Int) (K : SinkM) (V : SaveCons) (k : K.St) (u : V.St) {c a} :
      Q K → (c, a) ∈ saves (tarRun X T pr K V none k u).2.2.log → TarSavedIn Y clean Ck F T Q c
  | again (X : TarSrc Y clean Ck F) (pr : Ckpt → Int × Int) (K : SinkM) (V : SaveCons) (k : K.St) (u : V.St) {c0 c a} :
      Q K → TarSavedIn Y clean Ck F T Q c0 →
      (c, a) ∈ saves (tarRun X T pr K V (some c0) k u).2.2.log → TarSavedIn Y clean Ck F T Q c

/-- The list of entries a tar checkpoint carries. -/
def tarResultIn (c : ECkpt) : Option (List Entry) := match c.data with | some ⟨r, _⟩ => r | none => none

end Savior
