import Verif.Checker
import Verif.Counting
import Verif.Wrap
/-!
# The source test: RunSourceTest (checker/sourcetester.go)

Its save consumer calls `Resume` on the very source that is in the middle of a `Read`. In `SourceM` a save callback cannot do that, so
`LiveM` adds a `Read` whose callback may.
-/

namespace Savior

/-- A save consumer that may use the source: given the checkpoint and the source's state at that moment, it returns the source's
state, its own, and its answer. -/
abbrev Hook (St X : Type) := Ckpt → St → X → St × X × Option Err

/-- A source whose `Read` is given a consumer that may call back into the source. -/
structure LiveM extends SourceM where
  live : {X : Type} → Hook St X → Nat → St → X → ReadRes × St × X

/-- `handleSave` (seeksource.go:165-176), the consumer using the source. -/
def Seek.handleLive {X : Type} (hook : Hook SeekSt X) (ss : SeekSt) (x : X) : SeekSt × X :=
  if ss.wantSave then
    if ss.hasSSC then let q := hook (.plain ss.offset) { ss with wantSave := false } x; (q.1, q.2.1)
    else ({ ss with wantSave := false }, x)
  else (ss, x)

/-- `Read` (seeksource.go:125-146): `buf` is cut to what remains before the consumer is called. -/
def Seek.readLive {X : Type} (hook : Hook SeekSt X) (n : Nat) (ss : SeekSt) (x : X) : ReadRes × SeekSt × X :=
  match ss.br with
  | none => (([], some (.wrapped .uninit)), ss, x)
  | some _ =>
    if n = 0 then (([], none), ss, x)
    else
      let remaining := ss.size - ss.offset
      if remaining = 0 then (([], some .eof), ss, x)
      else if (n : Int) > remaining ∧ remaining < 0 then (([], some .panic), ss, x)
      else
        let n' := if (n : Int) > remaining then remaining.toNat else n
        let h := handleLive hook ss x
        match h.1.br with
        | none => (([], some .panic), h.1, h.2)
        | some b =>
          let r := b.read h.1.rs n'
          ((r.1.1, r.1.2), { h.1 with br := some r.2.1, rs := r.2.2, offset := h.1.offset + r.1.1.length }, h.2)

/-- seeksource (seeksource.go:125-146). -/
def seekLive : LiveM := { seekM with live := Seek.readLive }

/-- `Read` of a decompressing source (flatesource.go:118-156, gzipsource.go:124-163, bzip2source.go:123-161,
brotlisource.go:125-163): calling the consumer is the last thing it does. -/
def Wrap.readLive (cfg : WrapCfg) (D : Decomp) (I : SourceM) (F : Nat) {X : Type} (hook : Hook (WrapSt D I) X) (n : Nat) (s : WrapSt D I) (x : X) :
    ReadRes × WrapSt D I × X :=
  let q := Wrap.read cfg D I F (fun ck (_ : Option Ckpt) => (some ck, none)) n s none
  match q.2.2 with
  | none => (q.1, q.2.1, x)
  | some ck => let h := hook ck q.2.1 x; ((q.1.1, h.2.2), h.1, h.2.1)

/-- A decompressing source (`Read` of the four, see `Wrap.read`). -/
def wrapLive (cfg : WrapCfg) (D : Decomp) (I : SourceM) (F : Nat) : LiveM := { wrapM cfg D I F with live := Wrap.readLive cfg D I F }

/-- How the test ends (checker/sourcetester.go:46-92): it passes, something failed, there were more than 128 resumes, or no checkpoint was made. -/
inductive SVerdict
  | pass
  | failed (e : Err)
  | tooMany
  | noCheckpoint
  deriving DecidableEq, Repr

/-- What the test keeps: the number of checkpoints received (`numResumes`, `totalCheckpoints`), the offset of the reference writer
`output` (checker/sourcetester.go:25-46), and the verdict once `must` has failed. -/
structure STest where
  saves : Nat
  off : Nat
  bad : Option SVerdict

/-- The `OnSave` of the test (checker/sourcetester.go:46-67): resume the source from the checkpoint, position the writer. `gob`
(53) gives an equal checkpoint (C85). A failing `must` ends the test, so that what is done after it does not matter. -/
def stHook (S : SourceM) (data : List Byte) : Hook S.St STest := fun ck s x =>
  let r := S.resume (some ck) s
  let x := { x with saves := x.saves + 1 }
  (r.2, (if x.saves > 128 then { x with bad := some .tooMany }
    else match r.1 with
      | .error e => { x with bad := some (.failed e) }
      | .ok o => match cSeek data o with
        | .error e => { x with bad := some (.failed e) }
        | .ok o' => { x with off := o' }), none)

/-- `io.Copy(output, source)` (checker/sourcetester.go:32): with a 32 KiB buffer. No save consumer has been set by the test. The result
is the error, if any. -/
def stCopy (S : LiveM) (data : List Byte) : Nat → Nat → S.St → Option Err × S.St
  | 0, _, s => (some .diverge, s)
  | f + 1, off, s =>
    let r := S.live (fun _ s (_ : Unit) => (s, (), none)) 32768 s ()
    let w := cCheck data off r.1.1
    match w.2 with
    | some e => (some e, r.2.1)
    | none => match r.1.2 with
      | some e => (if e = .eof then none else some e, r.2.1)
      | none => stCopy S data f (off + w.1) r.2.1

/-- The loop (checker/sourcetester.go:70-88), with a budget. `threshold` is 256 KiB there, `size`, the buffer's, 16 KiB. -/
def stLoop (S : LiveM) (data : List Byte) (size : Nat) (threshold : Int) : Nat → Int → S.St → STest → SVerdict
  | 0, _, _, _ => .failed .diverge
  | f + 1, counter, s, x =>
    let r := S.live (stHook S.toSourceM data) size s x
    let counter := counter + r.1.1.length
    let s' := if counter > threshold then S.wantSave r.2.1 else r.2.1
    let counter := if counter > threshold then 0 else counter
    let x := r.2.2
    match x.bad with
    | some v => v
    | none =>
      let w := cCheck data x.off r.1.1
      match w.2 with
      | some e => .failed e
      | none =>
        let x := { x with off := x.off + w.1 }
        match r.1.2 with
        | none => stLoop S data size threshold f counter s' x
        | some e => if e = .eof then (if x.saves > 0 then .pass else .noCheckpoint) else .failed e

/-- `RunSourceTest` (checker/sourcetester.go:23-92), with the buffer's size and the threshold as parameters. -/
def sourceTest (S : LiveM) (size : Nat) (threshold : Int) (F : Nat) (data : List Byte) (s : S.St) : SVerdict :=
  let r := S.resume none s
  match r.1 with
  | .error e => .failed e
  | .ok _ =>
    let c := stCopy S data F 0 r.2
    match c.1 with
    | some e => .failed e
    | none =>
      let r := S.resume none c.2
      match r.1 with
      | .error e => .failed e
      | .ok _ => stLoop S data size threshold F 0 (S.setSSC true r.2) ⟨0, 0, none⟩

/-- `RunSourceTest` (checker/sourcetester.go:43, 68). -/
def runSourceTest (S : LiveM) (F : Nat) (data : List Byte) (s : S.St) : SVerdict := sourceTest S 16384 262144 F data s

end Savior
