import Verif.Ready
import Verif.Members
/-!
# FolderSink's operations on a disk with room: they leave room, and succeed if no system call fails
-/

namespace Savior
namespace FSink

theorem closeAt_tick (cfg : FCfg) (k : Nat) (s : FSink) : s.os.tick ≤ (s.closeAt cfg k).2.os.tick := by
  unfold closeAt
  split
  · exact OS.quietCall_tick _
  · exact Nat.le_refl _

theorem close_tick (cfg : FCfg) (s : FSink) : s.os.tick ≤ (s.close cfg).2.os.tick := by
  unfold close
  split
  · exact Nat.le_refl _
  · exact closeAt_tick cfg _ s

/-- There is a writer, and it is open. -/
def Writing (s : FSink) : Prop := lastWr s = some .nop ∨ ∃ i o, lastWr s = some (.real i o true)

section
variable {S : Path → Kind → Prop} (hS : PlannedK S) {cfg : FCfg} {s : FSink}
include hS

theorem mkdir_ready {e : Entry} (h : Roomy S s.os.fs) (hi : shouldIgnore e.path = false) {dst : Str} (hd : cfg.destPath e.path = .ok dst) {Q : Path}
    (hq : cleanComps dst = Q) (hQ : S Q .dir) :
    Roomy S (s.mkdir cfg e).2.os.fs ∧ s.os.tick ≤ (s.mkdir cfg e).2.os.tick ∧ (s.mkdir cfg e).2.ws = s.ws ∧ (s.os.Calm cfg.flt → (s.mkdir cfg e).1 = none) := by
  unfold mkdir
  simp only [hi, Bool.false_eq_true, if_false, hd, names, hq]
  have last : ∀ o : OS, Roomy S o.fs → s.os.tick ≤ o.tick → (o.fs.nodes Q = none ∨ o.fs.nodes Q = some .dir) →
      Roomy S (o.mkdirAll cfg.flt Q).2.fs ∧ s.os.tick ≤ (o.mkdirAll cfg.flt Q).2.tick ∧
      (s.os.Calm cfg.flt → (o.mkdirAll cfg.flt Q).1.map Err.wrapped = none) := by
    intro o ho ht hl
    obtain ⟨m1, m2, m3, _⟩ := ho.mkdirAll' hS (flt := cfg.flt) hQ (List.prefix_refl Q) (Or.inl ⟨rfl, by
      intro t; rcases hl with e | e <;> rw [e] <;> simp⟩)
    exact ⟨m1, Nat.le_trans ht m2, fun hc => by rw [(m3 (hc.later ht) (fun _ => hl)).1]; rfl⟩
  have gone : ∀ r : WR, s.os.fs.lstat Q = r → (∀ q n, r ≠ .found q n) → s.os.fs.nodes Q = none := by
    intro r hr hne
    cases hn : s.os.fs.nodes Q with
    | none => rfl
    | some n => rw [lstat_node h.tree (hS.ord Q .dir hQ) hn] at hr; exact absurd hr.symm (hne _ _)
  cases hlst : s.os.fs.lstat Q with
  | absent q =>
    obtain ⟨a, b, c⟩ := last s.os h (Nat.le_refl _) (Or.inl (gone _ hlst (by simp)))
    exact ⟨a, b, rfl, c⟩
  | bad x =>
    obtain ⟨a, b, c⟩ := last s.os h (Nat.le_refl _) (Or.inl (gone _ hlst (by simp)))
    exact ⟨a, b, rfl, c⟩
  | found q n =>
    obtain ⟨rfl, hn⟩ := h.found hS.toPlanned hQ hlst
    have other : n ≠ .dir → ∀ X : Option Err × FSink, X = (match (s.os.remove cfg.flt q).1 with
          | some x => (some (Err.wrapped x), ({ s with os := (s.os.remove cfg.flt q).2 } : FSink))
          | none => (((s.os.remove cfg.flt q).2.mkdirAll cfg.flt q).1.map Err.wrapped, { s with os := ((s.os.remove cfg.flt q).2.mkdirAll cfg.flt q).2 })) →
        Roomy S X.2.os.fs ∧ s.os.tick ≤ X.2.os.tick ∧ X.2.ws = s.ws ∧ (s.os.Calm cfg.flt → X.1 = none) := by
      intro hnd X hX
      obtain ⟨r1, r2, r3, r4⟩ := h.remove hS (flt := cfg.flt) hQ
      generalize s.os.remove cfg.flt q = r at *
      obtain ⟨re, R⟩ := r
      simp only at r1 r2 r3 r4
      cases re with
      | some x => subst hX; exact ⟨r1, r2, rfl, fun hc => by cases r4 hc ⟨n, hnd, hn⟩⟩
      | none =>
        subst hX
        obtain ⟨a, b, c⟩ := last R r1 r2 (Or.inl (r3 rfl))
        exact ⟨a, b, rfl, c⟩
    cases n with
    | dir => exact ⟨h, Nat.le_refl _, rfl, fun _ => rfl⟩
    | file i => exact other (by simp) _ rfl
    | link t => exact other (by simp) _ rfl

theorem symlink_ready {B : Path} (hB : cfg.Base B) (hB0 : B ≠ []) {e : Entry} {t : Str} (h : Roomy S s.os.fs) (hi : shouldIgnore e.path = false) {dst : Str}
    (hd : cfg.destPath e.path = .ok dst) {Q : Path} (hq : cleanComps dst = Q) (hQ : S Q .symlink) :
    Roomy S (s.symlink cfg e t).2.os.fs ∧ s.os.tick ≤ (s.symlink cfg e t).2.os.tick ∧ (s.symlink cfg e t).2.ws = s.ws ∧
    (s.os.Calm cfg.flt → LinkFine B e.path t → (s.symlink cfg e t).1 = none) := by
  unfold symlink
  simp only [hi, Bool.false_eq_true, if_false, hd, names, hq, base_abs hB]
  by_cases hab : isAbs t = true
  · rw [if_pos hab]
    exact ⟨h, Nat.le_refl _, rfl, fun _ hl => by rw [hl.1] at hab; cases hab⟩
  rw [if_neg hab]
  obtain ⟨N, hN, hdst, hdst2, hwalk⟩ := destPath_ok hB hd
  have hBN : AllOrd (B ++ N) := by
    intro x hx
    rcases List.mem_append.1 hx with hx | hx
    · exact base_ord hB x hx
    · exact hN x hx
  have hplace : namePlace B e.path = B ++ N := hwalk
  subst hdst
  have hdir : dirPath (pathText (B ++ N)) = pathText (B ++ N).dropLast := by unfold dirPath; rw [hdst2]; rfl
  have hBD : AllOrd (B ++ N).dropLast := fun x hx => hBN x (List.dropLast_subset _ hx)
  simp only [hdir, abs_join hBD]
  have hlo := (lexWalk_eq hBD (splitSlash_noslash t)).2
  by_cases hw : within (pathText B) (pathText (lexWalk (B ++ N).dropLast (splitSlash t))) = false
  · rw [if_pos hw]
    refine ⟨h, Nat.le_refl _, rfl, fun _ hl => ?_⟩
    exfalso
    have h3 := hl.2.2
    rw [hplace] at h3
    rw [(within_iff (base_ord hB) hlo).2 ⟨h3, Or.inl hB0⟩] at hw
    cases hw
  rw [if_neg hw]
  obtain ⟨r1, r2, r3, r4⟩ := h.removeAll hS (flt := cfg.flt) hQ (by simp)
  generalize s.os.removeAll cfg.flt Q = r at *
  obtain ⟨re, R⟩ := r
  simp only at r1 r2 r3 r4 ⊢
  cases re with
  | some x => exact ⟨r1, r2, rfl, fun hc _ => by cases (r3 hc).1⟩
  | none =>
    simp only
    obtain ⟨m1, m2, m3, m4⟩ := r1.mkdirAll' hS (flt := cfg.flt) hQ (List.dropLast_prefix Q) (Or.inr (dropLast_ne hS hQ))
    generalize R.mkdirAll cfg.flt Q.dropLast = m at *
    obtain ⟨me, M⟩ := m
    simp only at m1 m2 m3 m4 ⊢
    cases me with
    | some x => exact ⟨m1, Nat.le_trans r2 m2, rfl, fun hc _ => by cases (m3 (hc.later r2) (fun e => absurd e (dropLast_ne hS hQ))).1⟩
    | none =>
      simp only
      have lt := OS.symlink1_tick (flt := cfg.flt) t Q M
      refine ⟨?_, Nat.le_trans r2 (Nat.le_trans m2 lt), trivial, ?_⟩
      · rcases OS.symlink1_cases cfg.flt t Q M with ⟨x, l1, l2⟩ | ⟨q, ha, _, l1, l2⟩
        · rw [l2]; exact m1
        · rw [l2]
          obtain rfl := m1.absent hS.toPlanned hQ ha
          obtain ⟨hn, hp⟩ := FS.lstat_absent m1.tree ha
          refine m1.put hS.toPlanned (m1.toDiskOK.putLink hS.toPlanned hQ hn hp t).1 hQ (by simp) (by simp [FS.put]) ?_
          intro p hpq
          simp [FS.put, hpq]
      · intro hc hl
        have hmd := (m3 (hc.later r2) (fun e => absurd e (dropLast_ne hS hQ))).2
        have hgone : M.fs.nodes Q = none := by
          rcases m4 Q with e | ⟨e, _⟩
          · rw [e]; exact (r3 hc).2
          · exact absurd ((List.dropLast_prefix Q).eq_of_length_le e.length_le) (dropLast_ne hS hQ)
        unfold OS.symlink1
        rw [(hc.later (Nat.le_trans r2 m2)).now]
        simp only
        rw [if_neg hl.2.1]
        rcases List.eq_nil_or_concat Q with hQ0 | ⟨D, c, hQ0⟩
        · exact absurd hQ0 (hS.deep Q _ hQ)
        · rw [List.concat_eq_append] at hQ0
          subst hQ0
          have ho := hS.ord _ _ hQ
          rw [List.dropLast_concat] at hmd
          rw [lstat_step m1.tree (fun x hx => ho x (by simp [hx])) (ho c (by simp)) hmd, hgone]
          rfl

theorem getWriter_ready {e : Entry} (h : Roomy S s.os.fs) (hi : shouldIgnore e.path = false) {dst : Str} (hd : cfg.destPath e.path = .ok dst) {Q : Path}
    (hq : cleanComps dst = Q) (hQ : S Q .file) :
    Roomy S (s.getWriter cfg e).2.os.fs ∧ s.os.tick ≤ (s.getWriter cfg e).2.os.tick ∧
    ((s.getWriter cfg e).1 ≠ none → (s.getWriter cfg e).2.ws = s.ws) ∧
    ((s.getWriter cfg e).1 = none → Writing (s.getWriter cfg e).2) ∧
    (s.os.Calm cfg.flt → 0 ≤ e.woff → (s.getWriter cfg e).1 = none) := by
  unfold getWriter
  simp only [hi, Bool.false_eq_true, if_false]
  obtain ⟨c1, c2, c3⟩ := h.createFile hS hd hq hQ
  have c4 := (createFile_disk hS.toPlanned h.toDiskOK hd hq hQ).2.2.2
  generalize createFile cfg e s.os = c at *
  obtain ⟨ce, C⟩ := c
  simp only at c1 c2 c3 c4 ⊢
  cases ce with
  | error x => exact ⟨c1, c2, fun _ => rfl, nofun, fun hc => by obtain ⟨i, hi⟩ := c3 hc; cases hi⟩
  | ok i =>
    simp only
    have tt := OS.truncate_tick (flt := cfg.flt) i e.woff C
    have tr : Roomy S (C.truncate cfg.flt i e.woff).2.fs := by
      rcases truncate_cases cfg.flt i e.woff C with ⟨x, t1, t2⟩ | ⟨t0, t1, t2⟩
      · rw [t2]; exact c1
      · rw [t2]; exact c1.same (c1.toDiskOK.setData hQ (c4 i rfl) _).1 rfl
    have tc : C.Calm cfg.flt → 0 ≤ e.woff → (C.truncate cfg.flt i e.woff).1 = none := by
      intro hc h0
      unfold OS.truncate
      rw [hc.now]
      simp only
      rw [if_neg (by omega)]
    generalize C.truncate cfg.flt i e.woff = t at *
    obtain ⟨te, T⟩ := t
    simp only at tt tr tc ⊢
    cases te with
    | some x => exact ⟨tr, Nat.le_trans c2 tt, fun _ => rfl, nofun, fun hc h0 => by cases tc (hc.later c2) h0⟩
    | none =>
      simp only
      have hcl := close_fs cfg { s with os := T }
      have hct := close_tick cfg { s with os := T }
      generalize FSink.close cfg { s with os := T } = cl at *
      obtain ⟨cle, CL⟩ := cl
      simp only at hcl hct ⊢
      refine ⟨?_, Nat.le_trans (Nat.le_trans c2 tt) hct, fun h => absurd rfl h, fun _ => Or.inr ⟨i, _, lastWr_snoc rfl⟩, fun _ _ => trivial⟩
      rw [hcl.1]
      exact tr

theorem preallocate_ready {e : Entry} (h : Roomy S s.os.fs) (hi : shouldIgnore e.path = false) {dst : Str} (hd : cfg.destPath e.path = .ok dst) {Q : Path}
    (hq : cleanComps dst = Q) (hQ : S Q .file) :
    Roomy S (s.preallocate cfg e).2.os.fs ∧ s.os.tick ≤ (s.preallocate cfg e).2.os.tick ∧ (s.preallocate cfg e).2.ws = s.ws ∧
    (s.os.Calm cfg.flt → (s.preallocate cfg e).1 = none) := by
  have hdk := preallocate_disk hS.toPlanned h.toDiskOK hd hq hQ
  unfold preallocate at hdk ⊢
  simp only [hi, Bool.false_eq_true, if_false] at hdk ⊢
  obtain ⟨c1, c2, c3⟩ := h.createFile hS hd hq hQ
  generalize createFile cfg e s.os = c at *
  obtain ⟨ce, C⟩ := c
  simp only at c1 c2 c3 hdk ⊢
  cases ce with
  | error x => exact ⟨c1, c2, rfl, fun hc => by obtain ⟨i, hi⟩ := c3 hc; cases hi⟩
  | ok i =>
    simp only at hdk ⊢
    have key : ∀ r : Option Err × OS, r = (if 0 < e.usize then if cfg.legacy then legacyPrealloc cfg i e.usize C else oxPrealloc cfg i e.usize C else (none, C)) →
        r.2.fs.nodes = C.fs.nodes ∧ C.tick ≤ r.2.tick ∧ (C.Calm cfg.flt → r.1 = none) := by
      intro r hr
      split at hr
      · split at hr
        · subst hr
          unfold legacyPrealloc
          simp only
          split
          · refine ⟨?_, OS.write_tick _ _ _ _, fun hc => ?_⟩
            · unfold OS.write; split <;> rfl
            · unfold OS.write; rw [hc.now]; rfl
          · exact ⟨rfl, Nat.le_refl _, fun _ => rfl⟩
        · subst hr
          unfold oxPrealloc
          split
          · rename_i hf
            exact ⟨rfl, Nat.le_succ _, fun hc => by rw [hc.now] at hf; cases hf⟩
          · exact ⟨rfl, Nat.le_succ _, fun _ => rfl⟩
      · subst hr; exact ⟨rfl, Nat.le_refl _, fun _ => rfl⟩
    obtain ⟨k1, k2, k3⟩ := key _ rfl
    generalize (if 0 < e.usize then if cfg.legacy then legacyPrealloc cfg i e.usize C else oxPrealloc cfg i e.usize C else (none, C)) = r at *
    obtain ⟨re, R⟩ := r
    simp only at k1 k2 k3 hdk ⊢
    refine ⟨c1.same hdk ?_, Nat.le_trans c2 (Nat.le_trans k2 (OS.quietCall_tick _)), trivial, fun hc => k3 (hc.later c2)⟩
    rw [quietCall_fs]; exact k1

end

theorem write_ready {cfg : FCfg} {s : FSink} {S : Path → Kind → Prop} (h : Roomy S s.os.fs) (hw : Writing s) (bs : List Byte) :
    Roomy S (s.writeAt cfg (s.ws.length - 1) bs).2.os.fs ∧ s.os.tick ≤ (s.writeAt cfg (s.ws.length - 1) bs).2.os.tick ∧
    Writing (s.writeAt cfg (s.ws.length - 1) bs).2 ∧ 0 ≤ (s.writeAt cfg (s.ws.length - 1) bs).1.2.1 ∧
    (s.os.Calm cfg.flt → (s.writeAt cfg (s.ws.length - 1) bs).1.2.2 = none) := by
  rcases hw with hl | ⟨i, o, hl⟩
  · unfold lastWr at hl
    unfold writeAt
    rw [hl]
    exact ⟨h, Nat.le_refl _, Or.inl hl, Int.le_refl _, fun _ => rfl⟩
  · unfold lastWr at hl
    obtain ⟨l, _, hl2⟩ := setLast (w' := Wr.real i (o + (s.os.write cfg.flt i o bs).1.1) true) hl
    unfold writeAt
    rw [hl]
    simp only
    refine ⟨?_, OS.write_tick _ _ _ _, Or.inr ⟨i, _, lastWr_snoc hl2⟩, Int.natCast_nonneg _, fun hc => ?_⟩
    · have : (s.os.write cfg.flt i o bs).2.fs.nodes = s.os.fs.nodes ∧ (s.os.write cfg.flt i o bs).2.fs.next = s.os.fs.next := by
        unfold OS.write; split <;> exact ⟨rfl, rfl⟩
      exact h.same (h.toDiskOK.same this.1 this.2) this.1
    · unfold OS.write; rw [hc.now]

theorem sync_ready {cfg : FCfg} {s : FSink} (hw : Writing s) :
    (s.syncAt cfg (s.ws.length - 1)).2.os.fs = s.os.fs ∧ s.os.tick ≤ (s.syncAt cfg (s.ws.length - 1)).2.os.tick ∧ (s.syncAt cfg (s.ws.length - 1)).2.ws = s.ws ∧
    (s.os.Calm cfg.flt → (s.syncAt cfg (s.ws.length - 1)).1 = none) := by
  rcases hw with hl | ⟨i, o, hl⟩
  · unfold lastWr at hl
    unfold syncAt
    rw [hl]
    exact ⟨rfl, Nat.le_refl _, rfl, fun _ => rfl⟩
  · unfold lastWr at hl
    unfold syncAt
    rw [hl]
    exact ⟨quietCall_fs _ _, OS.quietCall_tick _, rfl, fun hc => OS.quietCall_calm hc⟩

/-! ## Sequences of calls -/

theorem plannedK {cfg : FCfg} {B : Path} (hB : cfg.Base B) (hB0 : B ≠ []) {plan : List (Str × Kind)} (hs : Sensible cfg B plan) : PlannedK (PlanPlace cfg B plan) := by
  refine { planned hB hs.apart with kinds := ?_, deep := ?_ }
  · rintro L ⟨p, h1, h2, h3, rfl⟩ ⟨p', h1', h2', h3', e⟩
    by_cases hp : p = p'
    · subst hp
      rw [hs.kinds p h1 h1'] at h2
      cases h2
    · exact (hs.apart _ h1 _ h1' h2 h2' h3 h3' hp).1 e
  · rintro L k ⟨p, _, _, h3, rfl⟩ e
    rw [e] at h3
    exact hB0 (List.prefix_nil.1 h3)

theorem roomy_of_room {cfg : FCfg} {B : Path} {plan : List (Str × Kind)} {fs : FS} (h : Room B plan fs) : Roomy (PlanPlace cfg B plan) fs := by
  refine { diskOK_of_fit (cfg := cfg) h.toDiskFit with above := ?_, free := ?_ }
  · rintro L k r ⟨p, h1, h2, _, rfl⟩ hr hne
    exact h.above _ h1 h2 r hr hne
  · rintro L ⟨p, h1, h2, _, rfl⟩
    exact h.free _ h1 h2 rfl

/-- What a log must say for all its calls to be about entries of the plan. -/
def PlanLog (plan : List (Str × Kind)) (l : List Ev) : Prop := ∀ ev ∈ l, ∀ kd e, ev.about = some (kd, e) → (e.path, kd) ∈ plan

/-- What is needed for all calls to succeed: write offsets are not negative, and links are acceptable. -/
structure FineLog (B : Path) (l : List Ev) : Prop where
  offs : ∀ ev ∈ l, ∀ kd e, ev.about = some (kd, e) → 0 ≤ e.woff
  links : ∀ e t r, Ev.symlink e t r ∈ l → shouldIgnore e.path = false → LinkFine B e.path t

theorem FineLog.left {B : Path} {l l' : List Ev} (h : FineLog B (l ++ l')) : FineLog B l :=
  ⟨fun ev hm => h.offs ev (by simp [hm]), fun e t r hm => h.links e t r (by simp [hm])⟩

section
variable {cfg : FCfg} {B : Path} {plan : List (Str × Kind)}

theorem dest_sensible (hB : cfg.Base B) (hB0 : B ≠ []) (hs : Sensible cfg B plan) {p : Str} {k : Kind} (hp : (p, k) ∈ plan) (hi : shouldIgnore p = false) :
    ∃ dst, cfg.destPath p = .ok dst ∧ cleanComps dst = namePlace B p ∧ PlanPlace cfg B plan (namePlace B p) k := by
  have h1 := hs.inside _ hp hi
  have hd : cfg.destPath p = .ok (pathText (lexWalk B (splitSlash p))) := by
    rw [destPath_eq hB, if_pos ⟨h1, Or.inl hB0⟩]
  exact ⟨_, hd, (dest_place hB hd).1, p, hp, hi, h1, rfl⟩

/-- Calls about entries of the plan leave room, and if no system call fails, none of them fails. -/
theorem calls_ready (hB : cfg.Base B) (hB0 : B ≠ []) (hs : Sensible cfg B plan) {tidy : Bool} {k s : (folderSink cfg).St} {b : Bool} {l : List Ev}
    (hk : Roomy (PlanPlace cfg B plan) (k : FSink).os.fs) (h : Calls (folderSink cfg) tidy k b l s) (hl : PlanLog plan l) :
    Roomy (PlanPlace cfg B plan) (s : FSink).os.fs ∧ (k : FSink).os.tick ≤ (s : FSink).os.tick ∧ (b = true → Writing s) ∧
    ((k : FSink).os.Calm cfg.flt → FineLog B l → ∀ ev ∈ l, ev.sinkError = none) := by
  have hS := plannedK hB hB0 hs
  have left : ∀ {l : List Ev} {ev : Ev}, PlanLog plan (l ++ [ev]) → PlanLog plan l := fun h ev hm => h ev (by simp [hm])
  have snoc : ∀ {l : List Ev} {ev : Ev} {P : Ev → Prop}, (∀ x ∈ l, P x) → P ev → ∀ x ∈ l ++ [ev], P x := by
    intro l ev P a b x hx
    rcases List.mem_append.1 hx with hx | hx
    · exact a x hx
    · rw [List.mem_singleton.1 hx]; exact b
  induction h with
  | start => exact ⟨hk, Nat.le_refl _, nofun, fun _ _ ev he => by cases he⟩
  | @note b l s ev _ hn ih =>
    obtain ⟨i1, i2, i3, i4⟩ := ih (left hl)
    refine ⟨i1, i2, i3, fun hc hf => snoc (i4 hc hf.left) ?_⟩
    cases ev <;> first | rfl | cases hn
  | @prealloc b l s e _ ih =>
    obtain ⟨i1, i2, i3, i4⟩ := ih (left hl)
    have hp : (e.path, Kind.file) ∈ plan := hl _ (List.mem_append_right _ (List.mem_singleton.2 rfl)) .file e rfl
    show Roomy _ (preallocate cfg e s).2.os.fs ∧ _ ≤ (preallocate cfg e s).2.os.tick ∧ (b = true → Writing (preallocate cfg e s).2) ∧ (_ → _ → ∀ ev ∈ l ++ [.prealloc e (preallocate cfg e s).1], _)
    cases hi : shouldIgnore e.path with
    | true =>
      have : preallocate cfg e s = (none, s) := by unfold preallocate; rw [hi]; rfl
      rw [this]
      exact ⟨i1, i2, i3, fun hc hf => snoc (i4 hc hf.left) rfl⟩
    | false =>
      obtain ⟨dst, hd, hq, hQ⟩ := dest_sensible hB hB0 hs hp hi
      obtain ⟨a1, a2, a3, a4⟩ := preallocate_ready hS (s := s) i1 hi hd hq hQ
      refine ⟨a1, Nat.le_trans i2 a2, fun hb => ?_, fun hc hf => snoc (i4 hc hf.left) (a4 (hc.later i2))⟩
      have := i3 hb
      unfold Writing lastWr at this ⊢
      rwa [a3]
  | @mkdir b l s e _ ih =>
    obtain ⟨i1, i2, i3, i4⟩ := ih (left hl)
    have hp : (e.path, Kind.dir) ∈ plan := hl _ (List.mem_append_right _ (List.mem_singleton.2 rfl)) .dir e rfl
    show Roomy _ (mkdir cfg e s).2.os.fs ∧ _ ≤ (mkdir cfg e s).2.os.tick ∧ (b = true → Writing (mkdir cfg e s).2) ∧ (_ → _ → ∀ ev ∈ l ++ [.mkdir e (mkdir cfg e s).1], _)
    cases hi : shouldIgnore e.path with
    | true =>
      have : mkdir cfg e s = (none, s) := by unfold mkdir; rw [hi]; rfl
      rw [this]
      exact ⟨i1, i2, i3, fun hc hf => snoc (i4 hc hf.left) rfl⟩
    | false =>
      obtain ⟨dst, hd, hq, hQ⟩ := dest_sensible hB hB0 hs hp hi
      obtain ⟨a1, a2, a3, a4⟩ := mkdir_ready hS (s := s) i1 hi hd hq hQ
      refine ⟨a1, Nat.le_trans i2 a2, fun hb => ?_, fun hc hf => snoc (i4 hc hf.left) (a4 (hc.later i2))⟩
      have := i3 hb
      unfold Writing lastWr at this ⊢
      rwa [a3]
  | @symlink b l s e t _ ih =>
    obtain ⟨i1, i2, i3, i4⟩ := ih (left hl)
    have hp : (e.path, Kind.symlink) ∈ plan := hl _ (List.mem_append_right _ (List.mem_singleton.2 rfl)) .symlink e rfl
    show Roomy _ (symlink cfg e t s).2.os.fs ∧ _ ≤ (symlink cfg e t s).2.os.tick ∧ (b = true → Writing (symlink cfg e t s).2) ∧ (_ → FineLog B (l ++ [.symlink e t (symlink cfg e t s).1]) → ∀ ev ∈ l ++ [.symlink e t (symlink cfg e t s).1], _)
    cases hi : shouldIgnore e.path with
    | true =>
      have : symlink cfg e t s = (none, s) := by unfold symlink; rw [hi]; rfl
      rw [this]
      exact ⟨i1, i2, i3, fun hc hf => snoc (i4 hc hf.left) rfl⟩
    | false =>
      obtain ⟨dst, hd, hq, hQ⟩ := dest_sensible hB hB0 hs hp hi
      obtain ⟨a1, a2, a3, a4⟩ := symlink_ready hS (s := s) (t := t) hB hB0 i1 hi hd hq hQ
      refine ⟨a1, Nat.le_trans i2 a2, fun hb => ?_, fun hc hf => snoc (i4 hc hf.left) (a4 (hc.later i2) (hf.links e t _ (List.mem_append_right _ (List.mem_singleton.2 rfl)) hi))⟩
      have := i3 hb
      unfold Writing lastWr at this ⊢
      rwa [a3]
  | @opened b l s e _ _ hok ih =>
    obtain ⟨i1, i2, i3, i4⟩ := ih (left hl)
    have hp : (e.path, Kind.file) ∈ plan := hl _ (List.mem_append_right _ (List.mem_singleton.2 rfl)) .file e rfl
    show Roomy _ (getWriter cfg e s).2.os.fs ∧ _ ≤ (getWriter cfg e s).2.os.tick ∧ (true = true → Writing (getWriter cfg e s).2) ∧ _
    cases hi : shouldIgnore e.path with
    | true =>
      rw [getWriter_ignored (s := s) hi]
      exact ⟨i1, i2, fun _ => Or.inl (lastWr_snoc rfl), fun hc hf => snoc (i4 hc hf.left) rfl⟩
    | false =>
      obtain ⟨dst, hd, hq, hQ⟩ := dest_sensible hB hB0 hs hp hi
      obtain ⟨a1, a2, a3, a4, a5⟩ := getWriter_ready hS (s := s) i1 hi hd hq hQ
      exact ⟨a1, Nat.le_trans i2 a2, fun _ => a4 hok, fun hc hf => snoc (i4 hc hf.left) rfl⟩
  | @refused b l s e x _ _ hbad ih =>
    obtain ⟨i1, i2, i3, i4⟩ := ih (left hl)
    have hp : (e.path, Kind.file) ∈ plan := hl _ (List.mem_append_right _ (List.mem_singleton.2 rfl)) .file e rfl
    show Roomy _ (getWriter cfg e s).2.os.fs ∧ _ ≤ (getWriter cfg e s).2.os.tick ∧ (b = true → Writing (getWriter cfg e s).2) ∧ _
    have hbad' : (getWriter cfg e s).1 = some x := hbad
    cases hi : shouldIgnore e.path with
    | true => rw [getWriter_ignored (s := s) hi] at hbad'; cases hbad'
    | false =>
      obtain ⟨dst, hd, hq, hQ⟩ := dest_sensible hB hB0 hs hp hi
      obtain ⟨a1, a2, a3, a4, a5⟩ := getWriter_ready hS (s := s) i1 hi hd hq hQ
      refine ⟨a1, Nat.le_trans i2 a2, fun hb => ?_, fun hc hf => ?_⟩
      · have := i3 hb
        unfold Writing lastWr at this ⊢
        rwa [a3 (by rw [hbad']; simp)]
      · have := a5 (hc.later i2) (hf.offs _ (List.mem_append_right _ (List.mem_singleton.2 rfl)) .file e rfl)
        rw [hbad'] at this
        cases this
  | @write l s bs _ ih =>
    obtain ⟨i1, i2, i3, i4⟩ := ih (left hl)
    obtain ⟨a1, a2, a3, a4, a5⟩ := write_ready (cfg := cfg) (s := s) i1 (i3 rfl) bs
    exact ⟨a1, Nat.le_trans i2 a2, fun _ => a3, fun hc hf => snoc (i4 hc hf.left) (a5 (hc.later i2))⟩
  | @sync l s _ ih =>
    obtain ⟨i1, i2, i3, i4⟩ := ih (left hl)
    obtain ⟨a1, a2, a3, a4⟩ := sync_ready (cfg := cfg) (s := s) (i3 rfl)
    refine ⟨?_, Nat.le_trans i2 a2, fun _ => ?_, fun hc hf => snoc (i4 hc hf.left) (a4 (hc.later i2))⟩
    · show Roomy _ (syncAt cfg (s.ws.length - 1) s).2.os.fs
      rw [a1]; exact i1
    · have := i3 rfl
      show Writing (syncAt cfg (s.ws.length - 1) s).2
      unfold Writing lastWr at this ⊢
      rwa [a3]
  | @close l s _ ih =>
    obtain ⟨i1, i2, i3, i4⟩ := ih hl
    have h1 : (closeAt cfg (s.ws.length - 1) s).2.os.fs = s.os.fs := (closeAt_fs cfg (s.ws.length - 1) s).1
    refine ⟨?_, Nat.le_trans i2 (closeAt_tick cfg _ s), nofun, i4⟩
    show Roomy _ (closeAt cfg (s.ws.length - 1) s).2.os.fs
    rw [h1]; exact i1

end
end FSink
end Savior
