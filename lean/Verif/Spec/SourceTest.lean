import Verif.SourceTest
/-!
# Specification: what a source test sees and what it ought to accept
-/

namespace Savior

/-- A save consumer that resumes the source from the checkpoint it is given, tells its own state what `Resume` returned, and reports
no error. -/
def resumeHook (S : SourceM) {X : Type} (f : Ckpt → Except Err Int → X → X) : Hook S.St X := fun ck s x =>
  let r := S.resume (some ck) s
  (r.2, f ck r.1 x, none)

/-- The same `Read`, noting only what the `Resume` of the save consumer returned, if it was called. -/
def seen (S : LiveM) (n : Nat) (s : S.St) : ReadRes × S.St × Option (Except Err Int) :=
  S.live (resumeHook S.toSourceM fun _ r _ => some r) n s none

/-- `Read` calls the save consumer at most once and makes no use of what the consumer does with the answer of `Resume`. -/
def CallsOnce (S : LiveM) : Prop :=
  ∀ {X : Type} (f : Ckpt → Except Err Int → X → X) (n : Nat) (s : S.St) (x : X), ∃ ck,
    S.live (resumeHook S.toSourceM f) n s x = ((seen S n s).1, (seen S n s).2.1,
      match (seen S n s).2.2 with | none => x | some r => f ck r x)

/-- Without a consumer that resumes it, `Read` is the `Read` of the source. -/
def IdleReads (S : LiveM) : Prop :=
  ∀ n s, S.live (fun _ s (_ : Unit) => (s, (), none)) n s () = S.read (fun _ (_ : Unit) => ((), none)) n s ()

/-- One `Read` as a caller sees it: what the `Resume` inside it returned, if there was one, and what it delivered. -/
structure Seen where
  resumed : Option (Except Err Int)
  bytes : List Byte
  err : Option Err

/-- Everything a caller sees who reads with a buffer of `size` bytes, asks for a checkpoint whenever more than `threshold` bytes came
since the last such request, and resumes from each checkpoint at once: up to the first error, or `f` calls. -/
def watch (S : LiveM) (size : Nat) (threshold : Int) : Nat → Int → S.St → List Seen
  | 0, _, _ => []
  | f + 1, counter, s =>
    let r := seen S size s
    let c := counter + r.1.1.length
    ⟨r.2.2, r.1.1, r.1.2⟩ ::
      (if r.1.2 = none then
        (if c > threshold then watch S size threshold f 0 (S.wantSave r.2.1) else watch S size threshold f c r.2.1)
       else [])

/-- `v` is an acceptable continuation for a reader positioned at `off` of the reference `data`: every `Resume` gives a position inside
`data`, every read delivers what `data` has there, and the last one, only, ends with EOF. -/
def Acceptable (data : List Byte) : Nat → List Seen → Prop
  | _, [] => False
  | off, v :: vs =>
    ∃ o : Nat, (match v.resumed with | none => o = off | some r => r = .ok (o : Int) ∧ o ≤ data.length) ∧
      v.bytes = (data.drop o).take v.bytes.length ∧
      ((v.err = none ∧ Acceptable data (o + v.bytes.length) vs) ∨ (v.err = some .eof ∧ vs = []))

/-- How many times the source was resumed. -/
def resumes (vs : List Seen) : Nat := (vs.filter fun v => v.resumed.isSome).length

end Savior
