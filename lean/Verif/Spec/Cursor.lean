import Verif.Source
/-!
# Specification: a resumable source is a cursor over a byte string

This file is independent of how any source is implemented. It says which sequences of calls and results are those of
a resumable cursor over a byte string `Y`.
-/

namespace Savior

/-- A call on a source. `resumeCk i` resumes from the `i`-th checkpoint emitted so far (nothing is called if there is no
such checkpoint). `read n` has a buffer of `n+1` bytes. -/
inductive SrcOp
  | resumeNil
  | resumeCk (i : Nat)
  | read (n : Nat)
  | readByte
  | wantSave
  | setSSC (present : Bool)
  deriving Repr

/-- What the caller sees. `em` lists the checkpoints handed to the save consumer during the call: their `Offset`, and
what the consumer answered. -/
inductive SrcOut
  | none
  | resumed (r : Except Err Int)
  | data (bs : List Byte) (e : Option Err) (em : List (Int × Option Err))
  | byte (b : Byte) (e : Option Err) (em : List (Int × Option Err))

/-- What is known about the cursor: the source was never resumed; it stands before byte `o`; it reported an error and
must be resumed; or `Resume` itself failed, after which nothing is claimed. -/
inductive Cur
  | fresh
  | at (o : Nat)
  | lost
  | dead
  deriving Repr, DecidableEq

/-- Cursor and the offsets of the checkpoints emitted so far. -/
structure SpecSt where
  cur : Cur
  cks : List Int

/-- Parameters of the specification: the byte string, whether it ends with EOF (or with an error), whether the
environment never fails, whether checkpoints are never refused, whether saves may be requested before `Resume`. -/
structure SpecCfg where
  Y : List Byte
  clean : Bool
  nice : Prop
  exact : Prop
  early : Prop

/-- One step of a resumable cursor. -/
inductive SpecStep (p : SpecCfg) : SpecSt → SrcOp → SrcOut → SpecSt → Prop
  /-- `Resume(nil)` puts the cursor at the beginning -/
  | resumeNil {c ks} : c ≠ .dead → SpecStep p ⟨c, ks⟩ .resumeNil (.resumed (.ok 0)) ⟨.at 0, ks⟩
  /-- it may fail, but not in a nice environment unless the stream is broken from the start -/
  | resumeNilErr {c ks e} : c ≠ .dead → (p.nice → p.clean = false ∧ p.Y = []) → e ≠ .panic →
      SpecStep p ⟨c, ks⟩ .resumeNil (.resumed (.error e)) ⟨.dead, ks⟩
  /-- `Resume(checkpoint)` puts the cursor where the checkpoint was taken, or at the beginning; the caller is told which -/
  | resumeCk {c ks i k} {o : Nat} : c ≠ .dead → ks[i]? = some k → ((o : Int) = k ∨ o = 0) → (p.exact → (o : Int) = k) → o ≤ p.Y.length →
      SpecStep p ⟨c, ks⟩ (.resumeCk i) (.resumed (.ok o)) ⟨.at o, ks⟩
  | resumeCkErr {c ks i k e} : c ≠ .dead → ks[i]? = some k → (p.nice → p.clean = false ∧ p.Y = []) → e ≠ .panic →
      SpecStep p ⟨c, ks⟩ (.resumeCk i) (.resumed (.error e)) ⟨.dead, ks⟩
  | resumeNoCk {c ks i} : ks[i]? = none → SpecStep p ⟨c, ks⟩ (.resumeCk i) .none ⟨c, ks⟩
  /-- a successful read delivers the next bytes; a checkpoint emitted meanwhile carries the offset before them -/
  | data {o ks n} {bs : List Byte} {em} : bs.length ≤ n + 1 → bs = (p.Y.drop o).take bs.length → o + bs.length ≤ p.Y.length →
      (em = [] ∨ em = [((o : Int), .none)] ∨ ∃ x, em = [((o : Int), some x)]) →
      SpecStep p ⟨.at o, ks⟩ (.read n) (.data bs .none em) ⟨.at (o + bs.length), ks ++ em.map (·.1)⟩
  /-- EOF is reported only at the end of a cleanly ending stream -/
  | eof {o ks n} {bs : List Byte} {em} : bs.length ≤ n + 1 → bs = p.Y.drop o → o + bs.length = p.Y.length → p.clean = true →
      (em = [] ∨ em = [((o : Int), .none)] ∨ ∃ x, em = [((o : Int), some x)]) →
      SpecStep p ⟨.at o, ks⟩ (.read n) (.data bs (some .eof) em) ⟨.at p.Y.length, ks ++ em.map (·.1)⟩
  /-- the save consumer's own error, with no bytes, leaving the cursor where it is -/
  | saveErr {o ks n x} :
      SpecStep p ⟨.at o, ks⟩ (.read n) (.data [] (some x) [((o : Int), some x)]) ⟨.at o, ks ++ [(o : Int)]⟩
  /-- any other error, preceded by correct bytes; in a nice environment only at the end of a broken stream -/
  | error {o ks n} {bs : List Byte} {x em} : bs.length ≤ n + 1 → bs = (p.Y.drop o).take bs.length → x ≠ .eof → x ≠ .panic →
      (p.nice → p.clean = false ∧ o + bs.length = p.Y.length) →
      (em = [] ∨ em = [((o : Int), .none)] ∨ ∃ x, em = [((o : Int), some x)]) →
      SpecStep p ⟨.at o, ks⟩ (.read n) (.data bs (some x) em) ⟨.lost, ks ++ em.map (·.1)⟩
  /-- `ReadByte` delivers the next byte; the save consumer's error is not reported -/
  | byte {o : Nat} {ks b em} : p.Y[o]? = some b →
      (em = [] ∨ em = [((o : Int), .none)] ∨ ∃ x, em = [((o : Int), some x)]) →
      SpecStep p ⟨.at o, ks⟩ .readByte (.byte b .none em) ⟨.at (o + 1), ks ++ em.map (·.1)⟩
  | byteEof {o : Nat} {ks b em} : o = p.Y.length → p.clean = true →
      (em = [] ∨ em = [((o : Int), .none)] ∨ ∃ x, em = [((o : Int), some x)]) →
      SpecStep p ⟨.at o, ks⟩ .readByte (.byte b (some .eof) em) ⟨.at o, ks ++ em.map (·.1)⟩
  | byteErr {o : Nat} {ks b x em} : x ≠ .eof → x ≠ .panic → (p.nice → p.clean = false ∧ o = p.Y.length) →
      (em = [] ∨ em = [((o : Int), .none)] ∨ ∃ x, em = [((o : Int), some x)]) →
      SpecStep p ⟨.at o, ks⟩ .readByte (.byte b (some x) em) ⟨.lost, ks ++ em.map (·.1)⟩
  | wantSave {c ks} : c ≠ .dead → (c = .fresh → p.early) → SpecStep p ⟨c, ks⟩ .wantSave .none ⟨c, ks⟩
  | setSSC {c ks b} : c ≠ .dead → SpecStep p ⟨c, ks⟩ (.setSSC b) .none ⟨c, ks⟩
  /-- reads without a valid cursor: nothing is claimed about what they return -/
  | readLost {c ks n out ks'} : (c = .fresh ∨ c = .lost) → SpecStep p ⟨c, ks⟩ (.read n) out ⟨.dead, ks'⟩
  | byteLost {c ks out ks'} : (c = .fresh ∨ c = .lost) → SpecStep p ⟨c, ks⟩ .readByte out ⟨.dead, ks'⟩
  | wantEarly {ks ks'} : ¬ p.early → SpecStep p ⟨.fresh, ks⟩ .wantSave .none ⟨.dead, ks'⟩
  | dead {ks op out ks'} : SpecStep p ⟨.dead, ks⟩ op out ⟨.dead, ks'⟩

/-- A whole history. -/
inductive SpecRun (p : SpecCfg) : SpecSt → List (SrcOp × SrcOut) → SpecSt → Prop
  | nil {s} : SpecRun p s [] s
  | cons {s op out s' h s''} : SpecStep p s op out s' → SpecRun p s' h s'' → SpecRun p s ((op, out) :: h) s''

end Savior
