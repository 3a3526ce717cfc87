import Verif.Spec.PathSink
/-!
# Specification: losing power

What an operating system guarantees about files after a power loss: what was in the file when `Sync` last returned without
an error, unless the file was truncated or replaced since. Everything else — what was written later, files never synced,
directories, symlinks, preallocated space — may be gone or be anything.
-/

namespace Savior

/-- What can be said of the files after a history of calls: the path the current writer is on, what a file's content is
known to begin with (as long as the machine is up), and what of it is on stable storage. -/
structure Durable where
  cur : Option Str
  text : Str → List Byte
  safe : Str → List Byte

/-- Nothing is known. -/
def Durable.none : Durable := ⟨.none, fun _ => [], fun _ => []⟩

/-- Nothing is known of this path any more. -/
def Durable.drop (p : Str) (d : Durable) : Durable :=
  { d with text := fun q => if q = p then [] else d.text q, safe := fun q => if q = p then [] else d.safe q }

/-- Only the first `n` bytes of this path are kept. -/
def Durable.cut (p : Str) (n : Nat) (d : Durable) : Durable :=
  { d with text := fun q => if q = p then (d.text p).take n else d.text q, safe := fun q => if q = p then (d.safe p).take n else d.safe q }

/-- What a call and its outcome change. Preallocation is taken to spoil everything: nothing is assumed of what it leaves. -/
def Durable.ev (d : Durable) : Ev → Durable
  | .prealloc _ _ => .none
  | .mkdir e _ => d.drop e.path
  | .symlink e _ _ => d.drop e.path
  | .openW e r =>
    if 0 ≤ e.woff ∧ e.woff ≤ ((d.text e.path).length : Int) then
      { d.cut e.path e.woff.toNat with cur := if r.isNone then some e.path else .none }
    else { d.drop e.path with cur := .none }
  | .write bs _ .none =>
    match d.cur with
    | some p => { d with text := fun q => if q = p then d.text p ++ bs else d.text q }
    | .none => d
  | .write _ _ (some _) => { d with cur := .none }
  | .sync .none =>
    match d.cur with
    | some p => { d with safe := fun q => if q = p then d.text p else d.safe q }
    | .none => d
  | .sync (some _) => d
  | .save _ _ => d
  | .progress _ => d

/-- After a run with this log (whose writers are gone when the next one starts). -/
def Durable.run (d : Durable) (log : List Ev) : Durable := log.foldl Durable.ev { d with cur := .none }

/-- A power loss takes the sink from `k` to `k'`, when `d` is what was on stable storage: of the archive's paths, those that
are kept at all and have something on stable storage hold files beginning with that. All else is arbitrary. -/
def Loses {K : SinkM} (P : PathLaw K) (A : Archive) (d : Durable) (k' : K.St) : Prop :=
  P.Inv k' ∧ ∀ z ∈ A.files, P.shown z.name = true → d.safe z.name ≠ [] → ∃ c, P.node k' z.name = some (.file c) ∧ d.safe z.name <+: c

/-- Any number of runs (as in `ZipAttempts`) and power losses, in any order. The number is the lowest index a run started
with since power was last lost. -/
inductive ZipPower (A : Archive) (D : Decomp) (F : Nat) (K : SinkM) (P : PathLaw K) (k : K.St) : List ECkpt → Nat → Durable → K.St → Prop
  | refl : ZipPower A D F K P k [] 0 .none k
  | run {hist ck before lo d k1 k2} (env : ZEnv) (V : SaveCons) (u : V.St) : env.Honest A → ZipPower A D F K P k hist lo d k1 → ChooseCk hist ck before →
      K.Next (zipResume A env D F K V ck k1 u).2.sink k2 →
      ZipPower A D F K P k (before ++ savedCks (zipResume A env D F K V ck k1 u).2.log) (min lo (startIndex ck))
        (d.run (zipResume A env D F K V ck k1 u).2.log) k2
  | kept {hist ck before lo d k1 k2} (env : ZEnv) (V : SaveCons) (u : V.St) : env.Honest A → ZipPower A D F K P k hist lo d k1 → ChooseCk hist ck before →
      (zipResume A env D F K V ck k1 u).1 = .error .stop →
      K.Next (zipResume A env D F K V ck k1 u).2.sink k2 →
      ZipPower A D F K P k [(zipResume A env D F K V ck k1 u).2.ck] (min lo (startIndex ck))
        (d.run (zipResume A env D F K V ck k1 u).2.log) k2
  | loss {hist lo d k1 k2} : ZipPower A D F K P k hist lo d k1 → Loses P A d k2 →
      ZipPower A D F K P k hist A.files.length ⟨.none, d.safe, d.safe⟩ k2

end Savior
