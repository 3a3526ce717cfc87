import Verif.Spec.Failures
/-!
# Sinks that answer alike
-/

namespace Savior

/-- Two sinks, in states related by `R`, answer every call alike and stay related — or, if `tol` holds, up to the first call
that fails on the first one. -/
structure Alike (tol : Prop) (K K' : SinkM) (R : K.St → K'.St → Prop) : Prop where
  mkdir : ∀ e s s', R s s' → ((K.mkdir e s).1 = (K'.mkdir e s').1 ∧ R (K.mkdir e s).2 (K'.mkdir e s').2) ∨ (tol ∧ (K.mkdir e s).1 ≠ none)
  symlink : ∀ e t s s', R s s' → ((K.symlink e t s).1 = (K'.symlink e t s').1 ∧ R (K.symlink e t s).2 (K'.symlink e t s').2) ∨ (tol ∧ (K.symlink e t s).1 ≠ none)
  preallocate : ∀ e s s', R s s' → ((K.preallocate e s).1 = (K'.preallocate e s').1 ∧ R (K.preallocate e s).2 (K'.preallocate e s').2) ∨ (tol ∧ (K.preallocate e s).1 ≠ none)
  getWriter : ∀ e s s', R s s' → ((K.getWriter e s).1 = (K'.getWriter e s').1 ∧ R (K.getWriter e s).2 (K'.getWriter e s').2) ∨ (tol ∧ (K.getWriter e s).1 ≠ none)
  write : ∀ bs s s', R s s' → ((K.write bs s).1 = (K'.write bs s').1 ∧ R (K.write bs s).2 (K'.write bs s').2) ∨ (tol ∧ (K.write bs s).1.2.2 ≠ none)
  sync : ∀ s s', R s s' → ((K.sync s).1 = (K'.sync s').1 ∧ R (K.sync s).2 (K'.sync s').2) ∨ (tol ∧ (K.sync s).1 ≠ none)
  closeWriter : ∀ s s', R s s' → R (K.closeWriter s) (K'.closeWriter s')

/-- Reading runs the save callback at most once, and depends on it only through the error it returns. -/
def SourceM.Indifferent (S : SourceM) : Prop := ∀ (C C' : Type) (cb : Callback C) (cb' : Callback C') (n : Nat) (s : S.St) (c : C) (c' : C'),
  ((S.read cb n s c).2.2 = c ∧ (S.read cb' n s c').2.2 = c' ∧ (S.read cb n s c).1 = (S.read cb' n s c').1 ∧ (S.read cb n s c).2.1 = (S.read cb' n s c').2.1) ∨
  ∃ ck, (S.read cb n s c).2.2 = (cb ck c).1 ∧ (S.read cb' n s c').2.2 = (cb' ck c').1 ∧
    ((cb ck c).2 = (cb' ck c').2 → (S.read cb n s c).1 = (S.read cb' n s c').1 ∧ (S.read cb n s c).2.1 = (S.read cb' n s c').2.1)

/-- A writer that reports success wrote everything it was given (the contract of `io.Writer`). -/
def SinkM.Full (K : SinkM) : Prop := ∀ bs s, (K.write bs s).1.2.2 = none → (K.write bs s).1.1 = bs.length

/-- A sink that keeps its part of the bargain when it reports success: writers write everything they are given, and advance the
entry's write offset by as much, except those for entries that are not counted (folder_sink.go:153-156: ignored names). -/
structure Counted (K : SinkM) (counts : Str → Bool) where
  /-- the current writer counts -/
  on : K.St → Bool
  mkdir : ∀ e s, (K.mkdir e s).1 = none → on (K.mkdir e s).2 = on s
  symlink : ∀ e t s, (K.symlink e t s).1 = none → on (K.symlink e t s).2 = on s
  prealloc : ∀ e s, (K.preallocate e s).1 = none → on (K.preallocate e s).2 = on s
  getWriter : ∀ e s, (K.getWriter e s).1 = none → on (K.getWriter e s).2 = counts e.path
  write : ∀ bs s, (K.write bs s).1.2.2 = none →
    (K.write bs s).1.1 = bs.length ∧ (K.write bs s).1.2.1 = (if on s then (bs.length : Int) else 0) ∧ on (K.write bs s).2 = on s
  sync : ∀ s, (K.sync s).1 = none → on (K.sync s).2 = on s
  close : ∀ s, on (K.closeWriter s) = on s

/-- Some sink call of a run failed. -/
def SinkFailed (log : List Ev) : Prop := ∃ ev ∈ log, ev.sinkError ≠ none

end Savior
