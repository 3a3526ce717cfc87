import Verif.Extract
/-!
# Specification of sinks

Two contracts, from which all extraction theorems follow.

* `SinkLaw`: what a *successful* call does is a function of an abstract view of the sink; consecutive writes only depend
  on the concatenated bytes; reopening an entry at an earlier write offset discards what was written after it.
* `PathLaw` (in `Spec/PathSink`): the sink is a map from paths to contents, and even failing calls touch only the path
  they are about.
-/

namespace Savior

/-- A sink seen as a deterministic machine on a view `W`. -/
structure SinkLaw (K : SinkM) where
  W : Type
  view : K.St → W
  mkdir : Entry → W → W
  symlink : Entry → Str → W → W
  prealloc : Entry → W → W
  /-- opening this entry works in this view -/
  openOK : Entry → W → Prop
  open_ : Entry → W → W
  write : List Byte → W → W
  /-- writers for this entry advance `entry.WriteOffset` (FolderSink's do not for ignored names) -/
  counts : Entry → Bool
  /-- the current writer does -/
  counting : W → Bool
  mkdir_ok : ∀ e s, (K.mkdir e s).1 = none → view (K.mkdir e s).2 = mkdir e (view s)
  symlink_ok : ∀ e t s, (K.symlink e t s).1 = none → view (K.symlink e t s).2 = symlink e t (view s)
  prealloc_ok : ∀ e s, (K.preallocate e s).1 = none → view (K.preallocate e s).2 = prealloc e (view s)
  getWriter_ok : ∀ e s, (K.getWriter e s).1 = none → openOK e (view s) ∧ view (K.getWriter e s).2 = open_ e (view s)
  /-- a write that reports no error wrote everything (contract of `io.Writer`) and advanced `WriteOffset` accordingly -/
  write_ok : ∀ bs s, (K.write bs s).1.2.2 = none →
    (K.write bs s).1.1 = bs.length ∧ (K.write bs s).1.2.1 = (if counting (view s) then (bs.length : Int) else 0) ∧
    view (K.write bs s).2 = write bs (view s)
  sync_view : ∀ s, view (K.sync s).2 = view s
  close_view : ∀ s, view (K.closeWriter s) = view s
  /-- the view without the current writer -/
  detach : W → W
  /-- opening a writer does not depend on the writer before it -/
  open_detach : ∀ e w, open_ e (detach w) = open_ e w
  /-- a new sink object over the same storage differs by the current writer at most -/
  reborn_view : ∀ s, detach (view (K.reborn s)) = detach (view s)
  open_counting : ∀ e w, counting (open_ e w) = counts e
  write_counting : ∀ bs w, counting (write bs w) = counting w
  counts_woff : ∀ e o, counts { e with woff := o } = counts e
  write_nil : ∀ w, write [] w = w
  write_append : ∀ xs ys w, write (xs ++ ys) w = write ys (write xs w)
  /-- reopening where the first `xs` bytes end forgets whatever was written after them -/
  reopen : ∀ e w xs ys, counts e = true → e.woff = 0 → openOK e w →
    open_ { e with woff := (xs.length : Int) } (write (xs ++ ys) (open_ e w)) = write xs (open_ e w)
  /-- an entry whose writers do not count is one where nothing is stored -/
  ignored : ∀ e w bs, counts e = false → e.woff = 0 → write bs (open_ e w) = open_ e w ∧ open_ e (open_ e w) = open_ e w

end Savior
