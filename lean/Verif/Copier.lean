import Verif.Base
/-!
# The copier (copy.go)
-/

namespace Savior

/-- Everything `Copier.Do` calls (copy.go:15-27, 56-81), over an arbitrary world `W` (the world may contain the source, the sink, the save
consumer, the copier's own `stop` flag, and callbacks may change any of it):
`read` is `Src.Read` into the 32 KiB buffer, `write` is `Dst.Write`, `shouldSave` and `wantSave` the consumer's and the
source's methods, `emit` is `EmitProgress` (a nil `EmitProgress` is the identity), `stopped` reads `c.stop`, `clearStop` sets it to false. -/
structure CopyIO (W : Type) where
  read : W → (List Byte × Option Err) × W
  write : List Byte → W → (Nat × Option Err) × W
  shouldSave : Nat → W → Bool × W
  wantSave : W → W
  emit : W → W
  stopped : W → Bool
  clearStop : W → W

/-- What happened, in order (ghost output). `stop` records the copier's stop flag when the call was made. -/
inductive CopyEv
  | read (stop : Bool) (bs : List Byte) (e : Option Err)
  | write (bs : List Byte) (m : Nat) (e : Option Err)
  | emit
  | should (n : Nat) (ans : Bool)
  | want
  deriving Repr, DecidableEq

/-- `progressThreshold` (copy.go:29). -/
def progressThreshold : Nat := 524288

/-- The loop of `Copier.Do` (copy.go:56-83). `fuel` bounds the number of iterations (the code has no bound). The result
`none` is Go's nil. -/
def copyLoop {W : Type} (io : CopyIO W) : Nat → Nat → W → Option Err × W × List CopyEv
  | 0, _, w => (some .diverge, w, [])
  | fuel + 1, counter, w =>
    if io.stopped w then (none, w, [])
    else
      let r := io.read w
      let m := io.write r.1.1 r.2
      let ev := [CopyEv.read (io.stopped w) r.1.1 r.1.2, CopyEv.write r.1.1 m.1.1 m.1.2]
      match m.1.2 with
      | some e => (some (.wrapped e), m.2, ev)
      | none =>
        let counter := counter + m.1.1
        let fire := decide (progressThreshold < counter)
        let w1 := if fire then io.emit m.2 else m.2
        let counter := if fire then 0 else counter
        let ev := if fire then ev ++ [CopyEv.emit] else ev
        match r.1.2 with
        | some e => (if e = .eof then none else some (.wrapped e), w1, ev)
        | none =>
          let s := io.shouldSave r.1.1.length w1
          let w2 := if s.1 then io.wantSave s.2 else s.2
          let ev := ev ++ (CopyEv.should r.1.1.length s.1 :: if s.1 then [CopyEv.want] else [])
          let q := copyLoop io fuel counter w2
          (q.1, q.2.1, ev ++ q.2.2)

/-- `Copier.Do` (copy.go:47-86); `params` is not nil. -/
def copyDo {W : Type} (io : CopyIO W) (fuel : Nat) (w : W) : Option Err × W × List CopyEv :=
  copyLoop io fuel 0 (io.clearStop w)

/-- `Copier.Do(nil)` (copy.go:48-50). -/
def copyDoNil {W : Type} (w : W) : Option Err × W := (some .nilParams, w)

end Savior
