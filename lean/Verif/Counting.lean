import Verif.History
import Verif.SeekLemmas
/-!
# Counting source (countingsource/countingsource.go)
-/

namespace Savior

/-- `savior.SeekSource` (source.go:70-83): a source with `Tell`, `Size`, `Section`. -/
structure SeekSrcM extends SourceM where
  tell : St → Int
  size : St → Int
  section_ : Int → Int → St → Except Err St

/-- seeksource as a `SeekSource` (seeksource.go:96-123). -/
def seekSrcM : SeekSrcM := { seekM with tell := Seek.tell, size := Seek.size, section_ := Seek.section_ }

/-- `readByteThreshold` (countingsource.go:10). -/
def readByteThreshold : Nat := 131072

/-- `countingSource` (countingsource.go:12-16). The callback `cc` of a source made by `Section` calls the callback of the
source it was made from with `start` added (84-86): `base` is the sum of those starts. `calls` is what the user's
callback has received so far (ghost). int64 overflow of offsets is not modelled. -/
structure CntSt (I : SeekSrcM) where
  src : I.St
  base : Int
  num : Nat
  calls : List Int

namespace Cnt
variable {I : SeekSrcM}

/-- `New` (countingsource.go:20-25). -/
def new (src : I.St) : CntSt I := { src, base := 0, num := 0, calls := [] }

/-- `numReadBytes += n`, then the callback if above the threshold (countingsource.go:37-41, 48-52). -/
def count (n : Nat) (s : CntSt I) : CntSt I :=
  if readByteThreshold < s.num + n then { s with num := 0, calls := s.calls ++ [s.base + I.tell s.src] }
  else { s with num := s.num + n }

/-- `Read` (countingsource.go:35-43). -/
def read {C : Type} (cb : Callback C) (n : Nat) (s : CntSt I) (c : C) : ReadRes × CntSt I × C :=
  let r := I.read cb n s.src c
  (r.1, count r.1.1.length { s with src := r.2.1 }, r.2.2)

/-- `ReadByte` (countingsource.go:45-55). -/
def readByte {C : Type} (cb : Callback C) (s : CntSt I) (c : C) : (Byte × Option Err) × CntSt I × C :=
  let r := I.readByte cb s.src c
  (r.1, if r.1.2 = none then count 1 { s with src := r.2.1 } else { s with src := r.2.1 }, r.2.2)

/-- `Section` (countingsource.go:77-89): the error is wrapped; the new source counts from zero and adds `start`. -/
def section_ (start sz : Int) (s : CntSt I) : Except Err (CntSt I) :=
  match I.section_ start sz s.src with
  | .error e => .error (.wrapped e)
  | .ok t => .ok { src := t, base := s.base + start, num := 0, calls := s.calls }

end Cnt

/-- countingsource; the other methods are forwarded (countingsource.go:31-33, 57-74). -/
def countM (I : SeekSrcM) : SeekSrcM where
  St := CntSt I
  resume c s := let r := I.resume c s.src; (r.1, { s with src := r.2 })
  setSSC b s := { s with src := I.setSSC b s.src }
  wantSave s := { s with src := I.wantSave s.src }
  read := Cnt.read
  readByte := Cnt.readByte
  progress s := I.progress s.src
  tell s := I.tell s.src
  size s := I.size s.src
  section_ := Cnt.section_

/-- A call on a `SeekSource`. -/
inductive SeekOp
  | call (op : SrcOp)
  | sect (start sz : Int)

/-- What the caller sees of it, including what `Tell`, `Size` and `Progress` would say afterwards. The error of `Section` is
reported up to `errors.Cause`. -/
structure SeekOut where
  out : SrcOut
  sect : Option Err
  tell : Int
  size : Int
  progress : Int × Int

/-- Run calls on a `SeekSource`; a successful `Section` replaces the source (the original must not be used any more,
source.go:78-82). -/
def seekRun (S : SeekSrcM) (answer : Nat → Option Err) : List SeekOp → S.St → List (Ckpt × Option Err) →
    List SeekOut × S.St × List (Ckpt × Option Err)
  | [], s, log => ([], s, log)
  | .call op :: ops, s, log =>
    let r := srcStep S.toSourceM answer op s log
    let q := seekRun S answer ops r.2.1 r.2.2
    (⟨r.1, none, S.tell r.2.1, S.size r.2.1, S.progress r.2.1⟩ :: q.1, q.2)
  | .sect a z :: ops, s, log =>
    match S.section_ a z s with
    | .ok t =>
      let q := seekRun S answer ops t log
      (⟨.none, none, S.tell t, S.size t, S.progress t⟩ :: q.1, q.2)
    | .error e =>
      let q := seekRun S answer ops s log
      (⟨.none, some e.cause, S.tell s, S.size s, S.progress s⟩ :: q.1, q.2)

end Savior
