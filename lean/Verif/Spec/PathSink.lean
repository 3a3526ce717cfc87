import Verif.Spec.Zip
/-!
# Sinks that are maps from paths to contents, and may fail at any time
-/

namespace Savior

/-- What a path holds. -/
inductive PNode | dir | link (target : Str) | file (content : List Byte)
  deriving DecidableEq, Repr

/-- A sink that keeps one node per entry path. Nothing is assumed about when calls fail; a failing call may leave its
own path in any state, except that reopening a file keeps the part before the write offset and a failing write appends
some prefix of what it was given. Calls leave what other paths hold alone. The law may be limited to some states (`Inv`,
which calls preserve) and to some combinations of paths and kinds of entries (`Fits`); entries with some names may be
dropped silently (`shown`). -/
structure PathLaw (K : SinkM) where
  Inv : K.St → Prop
  Fits : Str → Kind → Prop
  shown : Str → Bool
  node : K.St → Str → Option PNode
  /-- the current writer is on this path, at this offset -/
  At : K.St → Str → Nat → Prop
  /-- the current writer drops what it is given -/
  Deaf : K.St → Prop
  mkdir_inv : ∀ e s, Inv s → Fits e.path .dir → Inv (K.mkdir e s).2
  mkdir_frame : ∀ e s p k n, Inv s → Fits e.path .dir → Fits p k → p ≠ e.path → node s p = some n → node (K.mkdir e s).2 p = some n
  mkdir_ok : ∀ e s, Inv s → Fits e.path .dir → shown e.path = true → (K.mkdir e s).1 = none → node (K.mkdir e s).2 e.path = some .dir
  symlink_inv : ∀ e t s, Inv s → Fits e.path .symlink → Inv (K.symlink e t s).2
  symlink_frame : ∀ e t s p k n, Inv s → Fits e.path .symlink → Fits p k → p ≠ e.path → node s p = some n → node (K.symlink e t s).2 p = some n
  symlink_ok : ∀ e t s, Inv s → Fits e.path .symlink → shown e.path = true → e.woff = 0 → (K.symlink e t s).1 = none →
    node (K.symlink e t s).2 e.path = some (.link t)
  prealloc_inv : ∀ e s, Inv s → Fits e.path .file → Inv (K.preallocate e s).2
  open_inv : ∀ e s, Inv s → Fits e.path .file → Inv (K.getWriter e s).2
  open_frame : ∀ e s p k n, Inv s → Fits e.path .file → Fits p k → p ≠ e.path → node s p = some n → node (K.getWriter e s).2 p = some n
  open_ok : ∀ e s (o : Nat), Inv s → Fits e.path .file → shown e.path = true → e.woff = (o : Int) → (K.getWriter e s).1 = none →
    ∃ c, node (K.getWriter e s).2 e.path = some (.file c) ∧ c.length = o ∧ At (K.getWriter e s).2 e.path o ∧
      ∀ c0, node s e.path = some (.file c0) → o ≤ c0.length → c = c0.take o
  open_fail : ∀ e s (o : Nat), Inv s → Fits e.path .file → shown e.path = true → e.woff = (o : Int) → (K.getWriter e s).1 ≠ none →
    ∀ c0, node s e.path = some (.file c0) → o ≤ c0.length →
    ∃ c, node (K.getWriter e s).2 e.path = some (.file c) ∧ o ≤ c.length ∧ c.take o = c0.take o
  open_deaf : ∀ e s, Inv s → Fits e.path .file → shown e.path = false → (K.getWriter e s).1 = none → Deaf (K.getWriter e s).2
  write_spec : ∀ bs s p c, Inv s → Fits p .file → node s p = some (.file c) → At s p c.length →
    ∃ k, k ≤ bs.length ∧ node (K.write bs s).2 p = some (.file (c ++ bs.take k)) ∧ At (K.write bs s).2 p (c.length + k) ∧
      (K.write bs s).1.2.1 = k ∧ ((K.write bs s).1.2.2 = none → k = bs.length ∧ (K.write bs s).1.1 = bs.length) ∧
      Inv (K.write bs s).2 ∧ ∀ q k n, Fits q k → q ≠ p → node s q = some n → node (K.write bs s).2 q = some n
  write_deaf : ∀ bs s, Inv s → Deaf s → Inv (K.write bs s).2 ∧ Deaf (K.write bs s).2 ∧ node (K.write bs s).2 = node s ∧ (K.write bs s).1.2.1 = 0
  close_spec : ∀ s, Inv s → Inv (K.closeWriter s) ∧ node (K.closeWriter s) = node s
  /-- a new sink object over the same storage -/
  reborn_spec : ∀ s, Inv s → Inv (K.reborn s) ∧ node (K.reborn s) = node s
  sync_spec : ∀ s, Inv s → Inv (K.sync s).2 ∧ node (K.sync s).2 = node s ∧ (∀ p o, At s p o → At (K.sync s).2 p o) ∧ (Deaf s → Deaf (K.sync s).2)

/-- The archive's members are all of the sort the law covers. -/
def PathLaw.FitsAll {K : SinkM} (P : PathLaw K) (A : Archive) : Prop := ∀ zf ∈ A.files, P.Fits zf.name (zipFileEntry zf).kind

/-- What a member should be once extracted. -/
def zipNodeOf (A : Archive) (D : Decomp) (zf : ZFile) : PNode :=
  match (zipFileEntry zf).kind with
  | .dir => .dir
  | .symlink => .link zf.opened.1
  | .file => .file (zipContent A D zf).1

/-- What a path should hold after extracting the archive: what its last member of that name says. -/
def zipNode (A : Archive) (D : Decomp) (p : Str) : Option PNode :=
  ((A.files.filter fun zf => zf.name = p).getLast?).map (zipNodeOf A D)

/-- Choosing what to resume from among the checkpoints `hist` (oldest first): nothing, or one of them. `before` is what
then remains usable besides what the run will save: later checkpoints than the one chosen describe a future that is about
to be undone. -/
inductive ChooseCk (hist : List ECkpt) : Option ECkpt → List ECkpt → Prop
  | fresh : ChooseCk hist none []
  | pick {a b c} : hist = a ++ c :: b → ChooseCk hist (some c) (a ++ [c])

/-- Any number of runs, each ending in whatever way (failure, stop, success), each resumed from some checkpoint handed
to a save consumer before (not necessarily the last: the process may die before that is stored), or from nothing — or,
after a run that was stopped, from the checkpoint object that run worked with, which the caller may have kept. The next run
works on the same sink object or, in a new process, on a new one over the same storage. Sinks and consumers may misbehave
arbitrarily within the sink contract; environments may fail reads. A process that dies between two calls leaves the sink as
if the next call had failed without effect. The list has the checkpoints that may be resumed from. -/
inductive ZipAttempts (A : Archive) (D : Decomp) (F : Nat) (K : SinkM) (k : K.St) : List ECkpt → K.St → Prop
  | refl : ZipAttempts A D F K k [] k
  | step {hist ck before k1 k2} (env : ZEnv) (V : SaveCons) (u : V.St) : env.Honest A → ZipAttempts A D F K k hist k1 → ChooseCk hist ck before →
      K.Next (zipResume A env D F K V ck k1 u).2.sink k2 →
      ZipAttempts A D F K k (before ++ savedCks (zipResume A env D F K V ck k1 u).2.log) k2
  | kept {hist ck before k1 k2} (env : ZEnv) (V : SaveCons) (u : V.St) : env.Honest A → ZipAttempts A D F K k hist k1 → ChooseCk hist ck before →
      (zipResume A env D F K V ck k1 u).1 = .error .stop →
      K.Next (zipResume A env D F K V ck k1 u).2.sink k2 →
      ZipAttempts A D F K k [(zipResume A env D F K V ck k1 u).2.ck] k2

end Savior
