import Verif.Links
import Verif.Props.Contain
import Verif.Props.FolderExtract
import Verif.Props.TarFaults
/-!
# What any extraction does to its sink (C62, C63, C64)
-/

namespace Savior
open FSink

/-! ## C62: extraction stays inside the destination -/

theorem runOps_snoc (cfg : FCfg) (ops : List FOp) (op : FOp) (s : FSink) : runOps cfg (ops ++ [op]) s = (op.run cfg (runOps cfg ops s)).2 := by
  simp [runOps]

/-- The calls an extraction makes on a `FolderSink`, as operations on it: no `Nuke`, and the links are those logged. -/
theorem calls_ops {cfg : FCfg} {tidy b : Bool} {k s : (folderSink cfg).St} {log : List Ev} (h : Calls (folderSink cfg) tidy k b log s) :
    ∃ ops, s = runOps cfg ops k ∧ ∀ op ∈ ops, op ≠ .nuke ∧ op ≠ .close ∧ ∀ e t, op = .symlink e t → ∃ r, Ev.symlink e t r ∈ log := by
  have snoc : ∀ {s' : FSink} {l l' : List Ev} (op : FOp), (∃ ops, s' = runOps cfg ops k ∧
        ∀ op ∈ ops, op ≠ .nuke ∧ op ≠ .close ∧ ∀ e t, op = .symlink e t → ∃ r, Ev.symlink e t r ∈ l) →
      l ⊆ l' → op ≠ .nuke → op ≠ .close → (∀ e t, op = .symlink e t → ∃ r, Ev.symlink e t r ∈ l') →
      ∃ ops, (op.run cfg s').2 = runOps cfg ops k ∧ ∀ op ∈ ops, op ≠ .nuke ∧ op ≠ .close ∧ ∀ e t, op = .symlink e t → ∃ r, Ev.symlink e t r ∈ l' := by
    intro s' l l' op ⟨ops, a, b⟩ hl h1 h2 h3
    refine ⟨ops ++ [op], by subst a; exact (runOps_snoc cfg ops op k).symm, fun o ho => ?_⟩
    rcases List.mem_append.1 ho with ho | ho
    · obtain ⟨b1, b2, b3⟩ := b o ho
      exact ⟨b1, b2, fun e t he => (b3 e t he).imp fun r hr => hl hr⟩
    · rw [List.mem_singleton.1 ho]; exact ⟨h1, h2, h3⟩
  have app : ∀ (l : List Ev) (x : Ev), l ⊆ l ++ [x] := fun l x => List.subset_append_left l [x]
  induction h with
  | start => exact ⟨[], rfl, by simp⟩
  | note ev _ _ ih =>
    obtain ⟨ops, a, b⟩ := ih
    refine ⟨ops, a, fun o ho => ?_⟩
    obtain ⟨b1, b2, b3⟩ := b o ho
    exact ⟨b1, b2, fun e t he => (b3 e t he).imp fun r hr => app _ _ hr⟩
  | prealloc e _ ih => exact snoc (.prealloc e) ih (app _ _) (by simp) (by simp) (by simp)
  | mkdir e _ ih => exact snoc (.mkdir e) ih (app _ _) (by simp) (by simp) (by simp)
  | symlink e t _ ih =>
    refine snoc (.symlink e t) ih (app _ _) (by simp) (by simp) ?_
    rintro e' t' h
    cases h
    exact ⟨_, List.mem_append_right _ (List.mem_singleton.2 rfl)⟩
  | opened e _ _ _ ih => exact snoc (.getWriter e) ih (app _ _) (by simp) (by simp) (by simp)
  | refused e x _ _ _ ih => exact snoc (.getWriter e) ih (app _ _) (by simp) (by simp) (by simp)
  | @write l s bs _ ih => exact snoc (.write (FSink.ws s).length.pred bs) ih (app _ _) (by simp) (by simp) (by simp)
  | @sync l s _ ih => exact snoc (.sync (FSink.ws s).length.pred) ih (app _ _) (by simp) (by simp) (by simp)
  | @close l s _ ih => exact snoc (.closeWriter (FSink.ws s).length.pred) ih (fun _ h => h) (by simp) (by simp) (by simp)

/-- What is kept by any number of extractions. -/
structure Kept (B : Path) (fs0 : FS) (s : FSink) : Prop where
  inside : Inside B fs0 s.os.fs
  tidy : s.Tidy (fs0.Outside B)
  one : s.OneOpen

theorem runOps_tidy {cfg : FCfg} {B : Path} (hB : cfg.Base B) {fs0 : FS} (ops : List FOp) (s : FSink) (h : Inside B fs0 s.os.fs)
    (ts : s.Tidy (fs0.Outside B)) (tame : TameRun cfg B ops s) : (runOps cfg ops s).Tidy (fs0.Outside B) := by
  induction ops generalizing s with
  | nil => exact ts
  | cons op ops ih =>
    obtain ⟨t1, t2⟩ := tame
    obtain ⟨a, b⟩ := run_steps (lk := fun _ => True) hB op s h ts t1 (Or.inl fun _ => trivial)
    exact ih (op.run cfg s).2 (h.steps a) b t2

theorem calls_kept {cfg : FCfg} {B : Path} (hB : cfg.Base B) {fs0 : FS} {tidy b : Bool} {k s : FSink} {log : List Ev}
    (h : Calls (folderSink cfg) tidy k b log s) (hk : Kept B fs0 k) {L : Path → Prop}
    (hl : (∀ e t r, Ev.symlink e t r ∈ log → dot2 ∉ splitSlash t) ∨
      (Apart L ∧ LinksAt B L k.os.fs ∧ ∀ e t r, Ev.symlink e t r ∈ log → B <+: entryPlace B e → UpsFirst (splitSlash t) ∧ L (entryPlace B e))) :
    (Kept B fs0 s ∧ (Apart L ∧ LinksAt B L k.os.fs ∧ (∀ e t r, Ev.symlink e t r ∈ log → B <+: entryPlace B e → UpsFirst (splitSlash t) ∧ L (entryPlace B e)) → LinksAt B L s.os.fs)) ∧
    ((∀ e t r, Ev.symlink e t r ∈ log → entryPlace B e ≠ B) → k.os.fs.nodes B = some .dir → s.os.fs.nodes B = some .dir) := by
  obtain ⟨ops, rfl, ho⟩ := calls_ops h
  have apart : Apart L ∧ LinksAt B L k.os.fs ∧ (∀ e t r, Ev.symlink e t r ∈ log → B <+: entryPlace B e → UpsFirst (splitSlash t) ∧ L (entryPlace B e)) →
      TameRun cfg B ops k ∧ LinksAt B L (runOps cfg ops k).os.fs := by
    rintro ⟨h1, h2, h3⟩
    refine contained_apart hB h1 ops k hk.inside hk.tidy h2 ?_
    intro op hop
    obtain ⟨a, _, c⟩ := ho op hop
    cases op with
    | symlink e t => obtain ⟨r, hr⟩ := c e t rfl; exact h3 e t r hr
    | nuke => exact absurd rfl a
    | _ => trivial
  have tame : TameRun cfg B ops k := by
    rcases hl with hl | hl
    · exact tameRun_noDotDot ops (by
        intro op hop
        obtain ⟨a, _, c⟩ := ho op hop
        cases op with
        | symlink e t => obtain ⟨r, hr⟩ := c e t rfl; exact hl e t r hr
        | nuke => exact absurd rfl a
        | _ => trivial) k
    · exact (apart hl).1
  have := contained hB ops k hk.inside hk.tidy tame
  refine ⟨⟨⟨this.1, runOps_tidy hB ops k hk.inside hk.tidy tame, runOps_oneOpen cfg ops k hk.one⟩, fun h => (apart h).2⟩, fun hn => this.2 ?_⟩
  intro op hop htop
  obtain ⟨a, _, c⟩ := ho op hop
  cases op with
  | symlink e t => obtain ⟨r, hr⟩ := c e t rfl; exact hn e t r hr htop
  | nuke => exact absurd rfl a
  | _ => exact htop

theorem next_kept {cfg : FCfg} {B : Path} {fs0 : FS} {s s' : FSink} (hn : (folderSink cfg).Next s s') (h : Kept B fs0 s) :
    Kept B fs0 s' ∧ s'.os = s.os := by
  rcases hn with rfl | rfl
  · exact ⟨h, rfl⟩
  · exact ⟨⟨h.inside, by intro k i o b hk; simp [folderSink] at hk, by intro k i o hk; simp [folderSink] at hk⟩, rfl⟩

theorem extractions_kept {cfg : FCfg} {B : Path} (hB : cfg.Base B) {fs0 : FS} {k k' : (folderSink cfg).St} {P : Entry → Str → Prop} {L : Path → Prop}
    (h : Extractions (folderSink cfg) P k k')
    (hP : (∀ e t, P e t → dot2 ∉ splitSlash t) ∨ (Apart L ∧ LinksAt B L (FSink.os k).fs ∧ ∀ e t, P e t → B <+: entryPlace B e → UpsFirst (splitSlash t) ∧ L (entryPlace B e)))
    (hk : Kept B fs0 k) :
    (Kept B fs0 k' ∧ (Apart L ∧ LinksAt B L (FSink.os k).fs ∧ (∀ e t, P e t → B <+: entryPlace B e → UpsFirst (splitSlash t) ∧ L (entryPlace B e)) → LinksAt B L (FSink.os k').fs)) ∧
    ((∀ e t, P e t → entryPlace B e ≠ B) → (FSink.os k).fs.nodes B = some .dir → (FSink.os k').fs.nodes B = some .dir) := by
  have cond : ∀ {k1 : (folderSink cfg).St} {log : List Ev}, (Kept B fs0 k1 ∧ (Apart L ∧ LinksAt B L (FSink.os k).fs ∧
        (∀ e t, P e t → B <+: entryPlace B e → UpsFirst (splitSlash t) ∧ L (entryPlace B e)) → LinksAt B L (FSink.os k1).fs)) →
      (∀ e t r, Ev.symlink e t r ∈ log → P e t) →
      (∀ e t r, Ev.symlink e t r ∈ log → dot2 ∉ splitSlash t) ∨
      (Apart L ∧ LinksAt B L (FSink.os k1).fs ∧ ∀ e t r, Ev.symlink e t r ∈ log → B <+: entryPlace B e → UpsFirst (splitSlash t) ∧ L (entryPlace B e)) := by
    intro k1 log h1 h2
    rcases hP with hP | ⟨p1, p2, p3⟩
    · exact Or.inl fun e t r hr => hP e t (h2 e t r hr)
    · exact Or.inr ⟨p1, h1.2 ⟨p1, p2, p3⟩, fun e t r hr => p3 e t (h2 e t r hr)⟩
  induction h with
  | refl => exact ⟨⟨hk, fun h => h.2.1⟩, fun _ h => h⟩
  | @zip k1 k2 A env D F V u ck _ hl hn ih =>
    obtain ⟨b, hc⟩ := zipResume_calls A env D F (folderSink cfg) V ck k1 u
    obtain ⟨⟨a1, a3⟩, a2⟩ := calls_kept (L := L) hB hc ih.1.1 (cond ih.1 hl)
    obtain ⟨n1, n2⟩ := next_kept hn a1
    exact ⟨⟨n1, fun h => by rw [n2]; exact a3 ⟨h.1, ih.1.2 h, fun e t r hr => h.2.2 e t (hl e t r hr)⟩⟩,
      fun h1 h2 => by rw [n2]; exact a2 (fun e t r hr => h1 e t (hl e t r hr)) (ih.2 h1 h2)⟩
  | @tar k1 k2 S hS src T pr F V u ck _ hl hn ih =>
    have hc := tarResume_calls (T := T) hS pr F (folderSink cfg) V ck src k1 u
    obtain ⟨⟨a1, a3⟩, a2⟩ := calls_kept (L := L) hB hc ih.1.1 (cond ih.1 hl)
    obtain ⟨n1, n2⟩ := next_kept hn a1
    exact ⟨⟨n1, fun h => by rw [n2]; exact a3 ⟨h.1, ih.1.2 h, fun e t r hr => h.2.2 e t (hl e t r hr)⟩⟩,
      fun h1 h2 => by rw [n2]; exact a2 (fun e t r hr => h1 e t (hl e t r hr)) (ih.2 h1 h2)⟩

theorem kept_fresh {B : Path} {os : OS} (ht : os.fs.Tree) (hg : Harmless B os.fs) (hs : Separate B os.fs) : Kept B os.fs (.fresh os) :=
  ⟨Inside.init ht hg hs, by intro k i o b h; simp [FSink.fresh] at h, by intro k i o h; simp [FSink.fresh] at h⟩

/-- **C62** (what holds). Any number of zip and tar extractions into a `FolderSink` — whatever the archives and the
checkpoints, whatever fails, stopped or killed and restarted anywhere — change nothing outside the destination, if no link
target they create has a ".." in it. If moreover no link has the destination itself as its place, the destination stays a
directory. Missing: targets with "..", for which it is false (`C62_false_chain`). -/
theorem C62_contained_partial {cfg : FCfg} {B : Path} (hB : cfg.Base B) (os : OS) (ht : os.fs.Tree) (hg : Harmless B os.fs) (hs : Separate B os.fs)
    (P : Entry → Str → Prop) (hP : ∀ e t, P e t → dot2 ∉ splitSlash t) (k : FSink) (h : Extractions (folderSink cfg) P (.fresh os) k) :
    NothingOutside B os.fs k.os.fs ∧
    ((∀ e t, P e t → entryPlace B e ≠ B) → os.fs.nodes B = some .dir → k.os.fs.nodes B = some .dir) := by
  obtain ⟨⟨a, _⟩, b⟩ := extractions_kept (L := fun _ => True) hB h (Or.inl hP) (kept_fresh ht hg hs)
  exact ⟨a.inside.out, b⟩

/-- **C62** (what holds), with ".." in link targets. The same if the targets have ".." at their start only (as in "../lib/x"), and no
link (whose name does not lead out, which is refused) — neither those of the archives, nor those that were there — has a place below another link's. The links there afterwards are
at these places. -/
theorem C62_apart_partial {cfg : FCfg} {B : Path} (hB : cfg.Base B) (os : OS) (ht : os.fs.Tree) (hg : Harmless B os.fs) (hs : Separate B os.fs)
    (L : Path → Prop) (hL : Apart L) (hl : LinksAt B L os.fs)
    (P : Entry → Str → Prop) (hP : ∀ e t, P e t → B <+: entryPlace B e → UpsFirst (splitSlash t) ∧ L (entryPlace B e)) (k : FSink)
    (h : Extractions (folderSink cfg) P (.fresh os) k) :
    NothingOutside B os.fs k.os.fs ∧ LinksAt B L k.os.fs ∧
    ((∀ e t, P e t → entryPlace B e ≠ B) → os.fs.nodes B = some .dir → k.os.fs.nodes B = some .dir) := by
  obtain ⟨⟨a, c⟩, b⟩ := extractions_kept (L := L) hB h (Or.inr ⟨hL, hl, hP⟩) (kept_fresh ht hg hs)
  exact ⟨a.inside.out, c ⟨hL, hl, hP⟩, b⟩

/-- **C62**, zip: which links an extraction makes. Those of the archive's link members, with the recorded targets — if the
checkpoint, if any, was taken within a regular file, as all those are that the extraction saves. -/
theorem C62_zip_links (A : Archive) (env : ZEnv) (hh : env.Honest A) (D : Decomp) (F : Nat) (K : SinkM) (V : SaveCons) (ck : Option ECkpt) (k : K.St) (u : V.St)
    (hck : ∀ c e, ck = some c → c.entry = some e → e.kind = .file) :
    (∀ e t r, Ev.symlink e t r ∈ (zipResume A env D F K V ck k u).2.log → ∃ zf ∈ A.files, e = zipFileEntry zf ∧ e.kind = .symlink ∧ t = zf.opened.1) ∧
    (∀ c a e, Ev.save c a ∈ (zipResume A env D F K V ck k u).2.log → c.entry = some e → e.kind = .file) := by
  have hp : ∀ ev ∈ (zipPrepare A ck (zipInit A ck k u : XW K V)).2.log, ∃ e r, ev = .prealloc e r := by
    unfold zipPrepare
    split
    · rcases (zipPrealloc_said A.files (zipInit A ck k u : XW K V)).2 with ⟨_, h⟩ | ⟨a, e, b, x, _, _, h⟩
      · rw [h]
        intro ev hev
        simp [zipInit] at hev
        obtain ⟨e, _, rfl⟩ := hev
        exact ⟨_, _, rfl⟩
      · rw [h]
        intro ev hev
        simp [zipInit] at hev
        rcases hev with ⟨e, _, rfl⟩ | rfl <;> exact ⟨_, _, rfl⟩
    · simp [zipInit]
  have h := (zipResume_links (ok := ZipLink A) A env D F K V ck k u
    (fun i zf chunks hzf hk ho => ⟨zf, List.mem_of_getElem? hzf, rfl, hk, hh i zf hzf _ ho⟩)
    (fun c e t hc he hk => by rw [hck c e hc he] at hk; cases hk)).1
  generalize (zipPrepare A ck (zipInit A ck k u : XW K V)).2.log = l0 at *
  obtain ⟨rest, hr⟩ := h.pre
  have hd : (zipResume A env D F K V ck k u).2.log.drop l0.length = rest := by rw [← hr]; simp
  constructor
  · intro e t r hm
    rw [← hr] at hm
    rcases List.mem_append.1 hm with hm | hm
    · obtain ⟨_, _, h⟩ := hp _ hm; cases h
    · exact h.links e t r (by rw [hd]; exact hm)
  · intro c a e hm he
    rw [← hr] at hm
    rcases List.mem_append.1 hm with hm | hm
    · obtain ⟨_, _, h⟩ := hp _ hm; cases h
    · obtain ⟨e', h1, h2⟩ := h.saved c a (by rw [hd]; exact hm)
      rw [he] at h1; cases h1; exact h2

/-- **C62**, tar: an extraction from a checkpoint of the same stream (or from nothing) makes the links of the stream's link
members, with the recorded targets. -/
theorem C62_tar_links {Y : List Byte} {clean : Bool} {Ck : Ckpt → Nat → Prop} {F : Nat} {T : TarFmt} (hT : T.Law) (X : TarSrc Y clean Ck F)
    (pr : Ckpt → Int × Int) (K : SinkM) (V : SaveCons) (ck : Option ECkpt) (hck : TarCanStart Y clean Ck F T ck) (k : K.St) (u : V.St) (e : Entry) (t : Str)
    (r : Option Err) (h : Ev.symlink e t r ∈ (tarRun X T pr K V ck k u).2.2.log) :
    ∃ ms h st Y', TarPath T clean T.start Y (ms ++ [(h, [])]) st Y' ∧ h.typ = .symlink ∧ e.path = h.name ∧ t = h.link := by
  obtain ⟨o0, h0⟩ := tarCanStart_from hT hck
  obtain ⟨hd, ms, st, Y', a, b, c, d⟩ := (tarRun_links hT X pr ck k u h0).links e t r (by simpa using h)
  exact ⟨ms, hd, st, Y', a, b, by rw [c]; rfl, d⟩

/-! ## C63: writers are released -/

theorem next_oneOpen {cfg : FCfg} {s s' : FSink} (hn : (folderSink cfg).Next s s') (h : s.OneOpen) : s'.OneOpen := by
  rcases hn with rfl | rfl
  · exact h
  · intro k i o hk; simp [folderSink] at hk

/-- No writer the sink has handed out is open. -/
def NoneOpen (s : FSink) : Prop := ∀ (k i o : Nat), s.ws[k]? ≠ some (.real i o true)

theorem NoneOpen.one {s : FSink} (h : NoneOpen s) : s.OneOpen := fun k i o hk => absurd hk (h k i o)

theorem calls_tidy {cfg : FCfg} {b : Bool} {k s : (folderSink cfg).St} {log : List Ev} (h : Calls (folderSink cfg) true k b log s)
    (hk : NoneOpen k) : (b = false → NoneOpen s) ∧ ∀ (j i o : Nat), (FSink.ws s)[j]? = some (Wr.real i o true) → j + 1 = (FSink.ws s).length := by
  have same : ∀ {s s' : FSink} {b : Bool}, s'.ws = s.ws → ((b = false → NoneOpen s) ∧ ∀ (j i o : Nat), s.ws[j]? = some (Wr.real i o true) → j + 1 = s.ws.length) →
      ((b = false → NoneOpen s') ∧ ∀ (j i o : Nat), s'.ws[j]? = some (Wr.real i o true) → j + 1 = s'.ws.length) := by
    intro s s' b e h
    unfold NoneOpen at *
    rw [e]
    exact h
  induction h with
  | start => exact ⟨fun _ => hk, fun j i o hj => absurd hj (hk j i o)⟩
  | note ev _ _ ih => exact ih
  | @prealloc b l s e _ ih => exact same (preallocate_ws cfg e s).1 ih
  | @mkdir b l s e _ ih => exact same (mkdir_ws cfg e s).1 ih
  | @symlink b l s e t _ ih => exact same (symlink_ws cfg e t s).1 ih
  | @opened b l s e _ hb hn ih =>
    refine ⟨fun h => (by cases h), ?_⟩
    have h0 := ih.1 (hb rfl)
    have hone := run_oneOpen cfg (.getWriter e) s h0.one
    show ∀ (j i o : Nat), (FSink.getWriter cfg e s).2.ws[j]? = some (Wr.real i o true) → j + 1 = (FSink.getWriter cfg e s).2.ws.length
    intro j i o hj
    rcases getWriter_ws cfg e s with ⟨a, _⟩ | ⟨_, _, a, c⟩ | ⟨_, _, os', i', o', a, c⟩
    · exact absurd hn a
    · rw [a] at hj ⊢
      by_cases hlt : j < (FSink.ws s).length
      · rw [List.getElem?_append_left hlt] at hj; exact absurd hj (h0 j i o)
      · rw [List.getElem?_append_right (by omega)] at hj
        cases hx : j - (FSink.ws s).length with
        | zero => rw [hx] at hj; cases hj
        | succ n => rw [hx] at hj; cases hj
    · have := hone j i o hj
      replace this : (FSink.getWriter cfg e s).2.reg = some j := this
      rw [c] at this
      cases this
      rw [a]
      simp [close_len]
  | @refused b l s e x _ _ hn ih =>
    rcases getWriter_ws cfg e s with ⟨_, a, _⟩ | ⟨_, a, _⟩ | ⟨_, a, _⟩
    · exact same a ih
    · rw [show (FSink.getWriter cfg e s).1 = some x from hn] at a; cases a
    · rw [show (FSink.getWriter cfg e s).1 = some x from hn] at a; cases a
  | @write l s bs _ ih =>
    refine ⟨fun h => (by cases h), ?_⟩
    show ∀ (j i o : Nat), (FSink.writeAt cfg ((FSink.ws s).length - 1) bs s).2.ws[j]? = some (Wr.real i o true) →
      j + 1 = (FSink.writeAt cfg ((FSink.ws s).length - 1) bs s).2.ws.length
    intro j i o hj
    unfold FSink.writeAt at hj ⊢
    split at hj
    · rename_i i' o' hk'
      have hlt := (List.getElem?_eq_some_iff.1 hk').1
      simp only [List.length_set] at hj ⊢
      by_cases e : (FSink.ws s).length - 1 = j
      · omega
      · rw [List.getElem?_set_ne e] at hj
        exact ih.2 j i o hj
    · exact ih.2 j i o hj
    · exact ih.2 j i o hj
    · exact ih.2 j i o hj
  | @sync l s _ ih => exact same (syncAt_ws cfg ((FSink.ws s).length - 1) s).1 ih
  | @close l s _ ih =>
    have hnone : NoneOpen (FSink.closeAt cfg ((FSink.ws s).length - 1) s).2 := by
      intro j i o hj
      rw [closeAt_ws (s := s)] at hj
      split at hj
      · rename_i i' o' hk'
        have hlt := (List.getElem?_eq_some_iff.1 hk').1
        by_cases e : (FSink.ws s).length - 1 = j
        · subst e; simp [hlt] at hj
        · rw [List.getElem?_set_ne e] at hj
          have := ih.2 j i o hj
          omega
      · rename_i hno
        have := ih.2 j i o hj
        exact hno i o (by rw [show (FSink.ws s).length - 1 = j by omega]; exact hj)
    exact ⟨fun _ => hnone, fun j i o hj => absurd hj (hnone j i o)⟩

/-- **C63**, tar: if no writer was open before, none is open when an extraction returns — whatever the stream and the
checkpoint, and however it ends. -/
theorem C63_tar_released {S : SourceM} (hS : S.Conduit) (T : TarFmt) (pr : Ckpt → Int × Int) (F : Nat) (cfg : FCfg) (V : SaveCons) (ck : Option ECkpt)
    (src : S.St) (s : FSink) (u : V.St) (h : NoneOpen s) : NoneOpen (tarResume S T pr F (folderSink cfg) V ck src s u).2.2.sink :=
  (calls_tidy (tarResume_calls (T := T) hS pr F (folderSink cfg) V ck src s u) h).1 rfl

/-- **C63**, zip and tar: after any number of extractions on a sink on which at most the registered writer was open, the
same is true, and `Close` leaves no writer open, even if it fails. -/
theorem C63_closed {cfg : FCfg} {P : Entry → Str → Prop} {s k : (folderSink cfg).St} (h : Extractions (folderSink cfg) P s k) (hs : FSink.OneOpen s) :
    FSink.OneOpen k ∧ NoneOpen (FSink.close cfg k).2 := by
  have : FSink.OneOpen k := by
    induction h with
    | refl => exact hs
    | @zip k1 k2 A env D F V u ck _ _ hn ih =>
      obtain ⟨b, hc⟩ := zipResume_calls A env D F (folderSink cfg) V ck k1 u
      obtain ⟨ops, ho, _⟩ := calls_ops hc
      refine next_oneOpen hn ?_
      rw [ho]
      exact runOps_oneOpen cfg ops k1 ih
    | @tar k1 k2 S hS src T pr F V u ck _ _ hn ih =>
      obtain ⟨ops, ho, _⟩ := calls_ops (tarResume_calls (T := T) hS pr F (folderSink cfg) V ck src k1 u)
      refine next_oneOpen hn ?_
      rw [ho]
      exact runOps_oneOpen cfg ops k1 ih
  exact ⟨this, (close_allDead cfg k this).2⟩

/-! ## C64: preallocation -/

/-- **C64.** A fresh zip extraction first preallocates every regular file of the archive, once, in order. If one of these calls
fails, the run ends there with that error, having done nothing else; otherwise extraction follows, and it preallocates
nothing. -/
theorem C64_fresh (A : Archive) (env : ZEnv) (D : Decomp) (F : Nat) (K : SinkM) (V : SaveCons) (k : K.St) (u : V.St) :
    let files := (A.files.map zipFileEntry).filter fun e => e.kind = .file
    let r := zipResume A env D F K V none k u
    (∃ rest, r.2.log = (files.map fun e => .prealloc e none) ++ rest ∧ ∀ e x, Ev.prealloc e x ∉ rest) ∨
    (∃ done e todo x, files = done ++ e :: todo ∧ r.2.log = (done.map fun e => .prealloc e none) ++ [.prealloc e (some x)] ∧ r.1 = .error (.wrapped x)) := by
  intro files r
  obtain ⟨h1, h2⟩ := zipResume_links (ok := fun _ _ => True) A env D F K V none k u (fun _ _ _ _ _ _ => trivial) (fun _ _ _ _ _ _ => trivial)
  rcases (zipPrealloc_said A.files (zipInit A none k u : XW K V)).2 with ⟨a, b⟩ | ⟨a, e, b, x, c1, c2, c3⟩
  · refine Or.inl ?_
    obtain ⟨rest, hr⟩ := h1.pre
    refine ⟨rest, ?_, ?_⟩
    · rw [show r.2.log = _ from hr.symm]
      show (zipPrealloc A.files (zipInit A none k u : XW K V)).2.log ++ rest = _
      rw [b]
      rfl
    · intro e x hm
      refine h1.noPre e x ?_
      rw [← hr]
      simpa using hm
  · obtain ⟨g1, g2⟩ := h2 (.wrapped x) c2
    refine Or.inr ⟨a, e, b, x, c1, ?_, g1⟩
    show (zipResume A env D F K V none k u).2.log = _
    rw [g2]
    show (zipPrealloc A.files (zipInit A none k u : XW K V)).2.log = _
    rw [c3]
    rfl

/-- **C64.** A resumed extraction preallocates nothing. -/
theorem C64_resumed (A : Archive) (env : ZEnv) (D : Decomp) (F : Nat) (K : SinkM) (V : SaveCons) (c : ECkpt) (k : K.St) (u : V.St) (e : Entry) (x : Option Err) :
    Ev.prealloc e x ∉ (zipResume A env D F K V (some c) k u).2.log := by
  have h := (zipResume_links (ok := fun _ _ => True) A env D F K V (some c) k u (fun _ _ _ _ _ _ => trivial) (fun _ _ _ _ _ _ => trivial)).1.noPre e x
  exact h

/-! ## C65: the sink protocol -/

/-- **C65**, zip: whatever the archive and the checkpoint, the sink's final state and the results in the log are those of a
sequence of calls in which `Write` and `Sync` occur only with a writer that a successful `GetWriter` has returned. -/
theorem C65_zip_protocol (A : Archive) (env : ZEnv) (D : Decomp) (F : Nat) (K : SinkM) (V : SaveCons) (ck : Option ECkpt) (k : K.St) (u : V.St) :
    ∃ b, Calls K false k b (zipResume A env D F K V ck k u).2.log (zipResume A env D F K V ck k u).2.sink := zipResume_calls A env D F K V ck k u

/-- **C65**, tar: moreover no `Write` or `Sync` follows the writer's `Close`, every writer is closed before the next is asked for, and
before the end. -/
theorem C65_tar_protocol {S : SourceM} (hS : S.Conduit) (T : TarFmt) (pr : Ckpt → Int × Int) (F : Nat) (K : SinkM) (V : SaveCons)
    (ck : Option ECkpt) (src : S.St) (k : K.St) (u : V.St) :
    Calls K true k false (tarResume S T pr F K V ck src k u).2.2.log (tarResume S T pr F K V ck src k u).2.2.sink :=
  tarResume_calls hS pr F K V ck src k u

/-! ## Witnesses -/

/-- The links "a/b/l1" to "../.." and "l2" to "a/b/l1/..", and the file "l2/evil". -/
def evilArchive : Archive where
  bytes := [66]
  files := [
    ⟨cs ['a', '/', 'b', '/', 'l', '1'], .store, false, 5, 5, modeLink + 0o777, 0, (cs ['.', '.', '/', '.', '.'], true)⟩,
    ⟨cs ['l', '2'], .store, false, 9, 9, modeLink + 0o777, 0, (cs ['a', '/', 'b', '/', 'l', '1', '/', '.', '.'], true)⟩,
    ⟨cs ['l', '2', '/', 'e', 'v', 'i', 'l'], .store, false, 1, 1, 0o644, 0, ([], true)⟩]

def evilEnv : ZEnv where
  sched _ _ := ⟨0, false, none⟩
  dataOff _ := none
  opens i := match i with
    | 0 => .ok ([cs ['.', '.', '/', '.', '.']], none)
    | 1 => .ok ([cs ['a', '/', 'b', '/', 'l', '1', '/', '.', '.']], none)
    | _ => .ok ([], none)

def evilRun := zipResume evilArchive evilEnv (toy false false) 100 (folderSink exCfg) nopCons none (.fresh ⟨diskEmpty, 0⟩) ()

/-- **C62 is false** with ".." in link targets: extracting this archive into "/d" succeeds, and writes "/evil". -/
theorem C62_false_chain : (∃ res, evilRun.1 = .ok res) ∧ evilRun.2.sink.os.fs.content [cs ['e', 'v', 'i', 'l']] = some [66] ∧
    ¬ NothingOutside [[100]] diskEmpty evilRun.2.sink.os.fs := by
  have h2 : evilRun.2.sink.os.fs.nodes [cs ['e', 'v', 'i', 'l']] = some (.file 1) := by decide +kernel
  refine ⟨⟨evilArchive.files.map zipFileEntry, by rfl⟩, by decide +kernel, fun h => ?_⟩
  have h0 : diskEmpty.nodes [cs ['e', 'v', 'i', 'l']] = none := by rfl
  rcases h.nodes [cs ['e', 'v', 'i', 'l']] (by decide) with e | ⟨_, e, _⟩
  · rw [h2, h0] at e; cases e
  · rw [h2] at e; cases e

theorem diskEmpty_tree : diskEmpty.Tree := by
  refine ⟨rfl, ?_⟩
  intro p c h
  simp [diskEmpty] at h

theorem diskEmpty_nodes {p : Path} {n : Node} (h : diskEmpty.nodes p = some n) : n = .dir := by
  simp only [diskEmpty] at h
  split at h
  · cases h; rfl
  · cases h

theorem diskEmpty_harmless (B : Path) : Harmless B diskEmpty := fun _ _ h => by cases diskEmpty_nodes h
theorem diskEmpty_separate (B : Path) : Separate B diskEmpty := ⟨fun _ _ h => (by cases diskEmpty_nodes h), fun _ _ _ h => (by cases diskEmpty_nodes h)⟩

theorem toy_links {K : SinkM} {V : SaveCons} {ck : Option ECkpt} (hck : ∀ c e, ck = some c → c.entry = some e → e.kind = .file) (k : K.St) (u : V.St) (e : Entry) (t : Str) (r : Option Err)
    (h : Ev.symlink e t r ∈ (zipResume toyArchive toyEnv (toy false false) 100 K V ck k u).2.log) : e.path = cs ['l'] ∧ t = cs ['a'] := by
  obtain ⟨zf, hm, rfl, hk, rfl⟩ := (C62_zip_links toyArchive toyEnv toy_honest (toy false false) 100 K V ck k u hck).1 e t r h
  simp only [toyArchive, List.mem_cons, List.not_mem_nil, or_false] at hm
  rcases hm with rfl | rfl | rfl | rfl | rfl
  · revert hk; decide
  · revert hk; decide
  · exact ⟨rfl, rfl⟩
  · revert hk; decide
  · revert hk; decide

/-- Two runs with a restart in between are a chain of extractions. -/
theorem toy_extractions (K : SinkM) (k s1 : K.St) (u1 u2 : List (Except Err Action))
    (h1 : s1 = K.reborn (zipResume toyArchive toyEnv (toy false false) 100 K listCons none k u1).2.sink) :
    Extractions K (fun e t => e.path = cs ['l'] ∧ t = cs ['a']) k (zipResume toyArchive toyEnv (toy false false) 100 K listCons (some toyCk1) s1 u2).2.sink := by
  have a : Extractions K (fun e t => e.path = cs ['l'] ∧ t = cs ['a']) k s1 :=
    .zip toyArchive toyEnv (toy false false) 100 listCons u1 none .refl (toy_links (V := listCons) (ck := none) (by intro c e h; cases h) k u1) (Or.inr h1)
  have hck : ∀ c e, some toyCk1 = some c → c.entry = some e → e.kind = .file := by
    intro c e hc he
    cases hc
    cases he
    rfl
  exact .zip toyArchive toyEnv (toy false false) 100 listCons u2 (some toyCk1) a (toy_links (V := listCons) hck s1 u2) (Or.inl rfl)

/-- Stopped within `a`, the process restarted, resumed. -/
theorem disk_extractions : Extractions (folderSink (exCfg.withFaults noFlt)) (fun e t => e.path = cs ['l'] ∧ t = cs ['a']) (onFS diskEmpty)
    (diskRun noFlt (some toyCk1) diskSink1 []).2.sink := by
  have h := toy_extractions (folderSink (exCfg.withFaults noFlt)) (onFS diskEmpty) diskSink1 [.ok .stop] [] (by unfold diskSink1 diskRun; rfl)
  unfold diskRun
  exact h

/-- It left everything outside "/d" alone (and "/d" was created), all is there. -/
example : NothingOutside [[100]] diskEmpty (diskRun noFlt (some toyCk1) diskSink1 []).2.sink.os.fs :=
  (C62_contained_partial (base_faults exCfg_base noFlt) ⟨diskEmpty, 0⟩ diskEmpty_tree (diskEmpty_harmless _) (diskEmpty_separate _)
    (fun e t => e.path = cs ['l'] ∧ t = cs ['a']) (by rintro e t ⟨_, rfl⟩; decide) _ disk_extractions).1

/-- The folder "a", the link "b/l" to "../a", and the file "b/l/g". -/
def libArchive : Archive where
  bytes := [66]
  files := [
    ⟨cs ['a', '/'], .store, false, 0, 0, modeDir + 0o755, 0, ([], true)⟩,
    ⟨cs ['b', '/', 'l'], .store, false, 4, 4, modeLink + 0o777, 0, (cs ['.', '.', '/', 'a'], true)⟩,
    ⟨cs ['b', '/', 'l', '/', 'g'], .store, false, 1, 1, 0o644, 0, ([], true)⟩]

def libEnv : ZEnv where
  sched _ _ := ⟨0, false, none⟩
  dataOff _ := none
  opens i := match i with
    | 1 => .ok ([cs ['.', '.', '/', 'a']], none)
    | _ => .ok ([], none)

def libRun := zipResume libArchive libEnv (toy false false) 100 (folderSink exCfg) nopCons none (.fresh ⟨diskEmpty, 0⟩) ()

theorem libHonest : libEnv.Honest libArchive := by
  intro i zf hzf chunks ho
  match i with
  | 0 => cases hzf; cases ho; rfl
  | 1 => cases hzf; cases ho; rfl
  | 2 => cases hzf; cases ho; rfl
  | _ + 3 => cases hzf

theorem lib_extraction : Extractions (folderSink exCfg) (fun e t => ∃ zf ∈ libArchive.files, e = zipFileEntry zf ∧ e.kind = .symlink ∧ t = zf.opened.1)
    (.fresh ⟨diskEmpty, 0⟩) libRun.2.sink :=
  .zip libArchive libEnv (toy false false) 100 nopCons () none .refl
    (C62_zip_links libArchive libEnv libHonest (toy false false) 100 (folderSink exCfg) nopCons none (.fresh ⟨diskEmpty, 0⟩) () (by intro c e h; cases h)).1 (Or.inl rfl)

/-- It succeeds, writes through its link, which has a ".." in it, to "a/g", and nothing outside "/d" has changed. -/
example : (∃ res, libRun.1 = .ok res) ∧ libRun.2.sink.os.fs.content [[100], cs ['a'], cs ['g']] = some [66] ∧
    NothingOutside [[100]] diskEmpty libRun.2.sink.os.fs := by
  refine ⟨⟨libArchive.files.map zipFileEntry, by rfl⟩, by decide +kernel, ?_⟩
  refine (C62_apart_partial exCfg_base ⟨diskEmpty, 0⟩ diskEmpty_tree (diskEmpty_harmless _) (diskEmpty_separate _)
    (fun p => p = [[100], cs ['b'], cs ['l']]) (by rintro p q rfl rfl _; rfl) (fun q t h => (by cases diskEmpty_nodes h)) _ ?_ _ lib_extraction).1
  rintro e t ⟨zf, hm, rfl, hk, rfl⟩ _
  simp only [libArchive, List.mem_cons, List.not_mem_nil, or_false] at hm
  rcases hm with rfl | rfl | rfl
  · exact absurd hk (by decide)
  · refine ⟨?_, by rfl⟩
    show UpsFirst [dot2, cs ['a']]
    simp [UpsFirst, dot1, dot2, cs]
  · exact absurd hk (by decide)

/-- After a zip extraction one writer is open, and `Close` closes it. -/
example : (diskRun noFlt none (onFS diskEmpty) [.ok .stop]).2.sink.ws = [.real 0 2 true] ∧
    NoneOpen (FSink.close (exCfg.withFaults noFlt) (diskRun noFlt (some toyCk1) diskSink1 []).2.sink).2 :=
  ⟨by rfl, (C63_closed disk_extractions (by intro k i o h; simp [onFS] at h)).2⟩

/-- After a tar extraction, stopped half-way, none is. -/
def tarIntoDisk := tarResume seekM (toyTar true) (fun _ => (0, 1)) 100 (folderSink exCfg) listCons none toyTarSrc.src (onFS diskEmpty) [.ok .stop]

example : NoneOpen tarIntoDisk.2.2.sink :=
  C63_tar_released seek_conduit (toyTar true) (fun _ => (0, 1)) 100 exCfg listCons none toyTarSrc.src (onFS diskEmpty) [.ok .stop]
    (by intro k i o h; simp [onFS] at h)

example : tarIntoDisk.2.2.sink.ws = [.real 0 2 false] := by rfl

/-- The toy stream's run makes its link. -/
example : (((diskTar none (onFS diskEmpty) []).2.2.log).filter fun ev => match ev with | .symlink _ _ _ => true | _ => false).length = 1 := by rfl

/-- A failing preallocation of the third file ends the run. -/
example : ∃ x, (toyRun (fun n => if n = 1 then some 5 else none) none memEmpty []).1 = .error (.wrapped x) ∧
    (toyRun (fun n => if n = 1 then some 5 else none) none memEmpty []).2.log.length = 2 := ⟨_, by rfl, by rfl⟩

/-- C62 applies to that link: it is a member of the archive, with that target. -/
example : ∃ ms h st Y', TarPath (toyTar true) true (toyTar true).start (plainGeo toyStream).stream (ms ++ [(h, [])]) st Y' ∧ h.typ = .symlink ∧
    [108] = h.name ∧ [109] = h.link := by
  have h : ∃ ev e r, ((diskTar none (onFS diskEmpty) []).2.2.log).find? (fun ev => match ev with | .symlink _ _ _ => true | _ => false) = some ev ∧
      ev = .symlink e [109] r ∧ e.path = [108] := ⟨_, _, _, by rfl, by rfl, by rfl⟩
  obtain ⟨ev, e, r, h1, h2, h3⟩ := h
  subst h2
  rw [← h3]
  exact C62_tar_links (toyTar_law true) (plainSrc toyStream 100 (by decide)) (fun _ => (0, 1)) (folderSink (exCfg.withFaults noFlt)) listCons none
    (by intro c h; cases h) (onFS diskEmpty) [] e [109] r (List.mem_of_find?_eq_some h1)

end Savior
