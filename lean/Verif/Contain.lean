import Verif.FolderMore
import Verif.Spec.Contain
/-!
# Staying inside the sink's directory: lemmas
-/

namespace Savior

theorem upsFirst_of_not {l : List Str} (h : dot2 ∉ l) : UpsFirst l := by
  induction l with
  | nil => trivial
  | cons c t ih =>
    have ht : dot2 ∉ t := fun x => h (by simp [x])
    unfold UpsFirst
    split
    · exact ih ht
    · exact ht

theorem upsFirst_append {a b : List Str} (ha : UpsFirst a) (hb : dot2 ∉ b) : UpsFirst (a ++ b) := by
  induction a with
  | nil => exact upsFirst_of_not hb
  | cons c t ih =>
    unfold UpsFirst at ha
    simp only [List.cons_append]
    unfold UpsFirst
    split
    · rename_i h; rw [if_pos h] at ha; exact ih ha
    · rename_i h; rw [if_neg h] at ha; simp [ha, hb]

/-- Without "..", a path only goes down. -/
theorem lexWalk_down {l : List Str} (h : dot2 ∉ l) (cur : Path) : lexWalk cur l = cur ++ l.filter (fun c => c ≠ [] ∧ c ≠ dot1) := by
  induction l generalizing cur with
  | nil => simp [lexWalk]
  | cons c t ih =>
    have ht : dot2 ∉ t := fun x => h (by simp [x])
    have hc : c ≠ dot2 := fun x => h (by simp [x])
    simp only [lexWalk, hc, if_false]
    split
    · rename_i h1
      rw [ih ht]
      have : decide (c ≠ [] ∧ c ≠ dot1) = false := by simpa [Classical.or_iff_not_imp_left] using h1
      rw [List.filter_cons_of_neg (by simpa using this)]
    · rename_i h1
      simp only [not_or] at h1
      rw [ih ht, List.filter_cons_of_pos (by simp [h1])]
      simp

theorem lexWalk_down_prefix {l : List Str} (h : dot2 ∉ l) (cur : Path) : cur <+: lexWalk cur l := by
  rw [lexWalk_down h]; exact List.prefix_append _ _

/-- Resolving a path whose ".." come first and which lexically ends in `B` ends in `B`, if all links are harmless. -/
theorem walk_inside {B : Path} {fs : FS} (hg : Harmless B fs) {follow : Bool} (b : Nat) (cur : Path) (l : List Str) (hu : UpsFirst l)
    (hB : B <+: lexWalk cur l) :
    (∀ q n, walk fs.nodes follow b cur l = .found q n → B <+: q) ∧ (∀ q, walk fs.nodes follow b cur l = .absent q → B <+: q) := by
  have name : ∀ {c : Str} {rest : List Str}, c ≠ [] → c ≠ dot1 → c ≠ dot2 → UpsFirst (c :: rest) → dot2 ∉ rest := by
    intro c rest h1 h2 h3 h
    unfold UpsFirst at h
    rwa [if_neg (by simp [h1, h2, h3])] at h
  have lw : ∀ {c : Str} {rest : List Str} {cur : Path}, c ≠ [] → c ≠ dot1 → c ≠ dot2 → lexWalk cur (c :: rest) = lexWalk (cur ++ [c]) rest := by
    intro c rest cur h1 h2 h3
    simp [lexWalk, h1, h2, h3]
  have key := walk_ind (nodes := fs.nodes) (follow := follow)
    (P := fun b cur l r => UpsFirst l → B <+: lexWalk cur l → (∀ q n, r = .found q n → B <+: q) ∧ (∀ q, r = .absent q → B <+: q))
    (by intro b cur _ h; exact ⟨by rintro q n ⟨⟩; exact h, by rintro q ⟨⟩⟩)
    (by
      intro b cur c rest r hc ih hu h
      have hu' : UpsFirst rest := by unfold UpsFirst at hu; rwa [if_pos (by rcases hc with hc | hc <;> simp [hc])] at hu
      have h' : B <+: lexWalk cur rest := by simpa [lexWalk, hc] using h
      exact ih hu' h')
    (by
      intro b cur rest r ih hu h
      have hu' : UpsFirst rest := by unfold UpsFirst at hu; rwa [if_pos (by simp)] at hu
      have h' : B <+: lexWalk cur.dropLast rest := by
        have e1 : ¬ (dot2 = [] ∨ dot2 = dot1) := by decide
        simpa [lexWalk, e1] using h
      exact ih hu' h')
    (by
      intro b cur c h1 h2 h3 _ hu h
      rw [lw h1 h2 h3] at h
      exact ⟨by rintro q n ⟨⟩, by rintro q ⟨⟩; exact h⟩)
    (by intro b cur c rest _ _ _ _ _ _ _; exact ⟨by rintro q n ⟨⟩, by rintro q ⟨⟩⟩)
    (by
      intro b cur c rest r h1 h2 h3 hn ih hu h
      rw [lw h1 h2 h3] at h
      exact ih (upsFirst_of_not (name h1 h2 h3 hu)) h)
    (by
      intro b cur c i h1 h2 h3 _ hu h
      rw [lw h1 h2 h3] at h
      exact ⟨by rintro q n ⟨⟩; exact h, by rintro q ⟨⟩⟩)
    (by intro b cur c i rest _ _ _ _ _ _ _; exact ⟨by rintro q n ⟨⟩, by rintro q ⟨⟩⟩)
    (by
      intro b cur c t h1 h2 h3 _ _ hu h
      rw [lw h1 h2 h3] at h
      exact ⟨by rintro q n ⟨⟩; exact h, by rintro q ⟨⟩⟩)
    (by intro cur c t rest _ _ _ _ _ _ _; exact ⟨by rintro q n ⟨⟩, by rintro q ⟨⟩⟩)
    (by
      intro b cur c t rest r h1 h2 h3 hn _ ih hu h
      have hr := name h1 h2 h3 hu
      rw [lw h1 h2 h3] at h
      obtain ⟨g1, g2⟩ := hg _ _ hn
      have hBq : B <+: cur ++ [c] := by
        rcases List.prefix_or_prefix_of_prefix h (lexWalk_down_prefix hr (cur ++ [c])) with h' | h'
        · exact h'
        · rw [g1 h']; exact List.prefix_rfl
      obtain ⟨k1, k2, k3⟩ := g2 hBq
      rw [List.dropLast_concat] at k3
      rw [k1] at ih
      simp only [Bool.false_eq_true, if_false] at ih
      refine ih (upsFirst_append k2 hr) ?_
      rw [lexWalk_append]
      exact k3.trans (lexWalk_down_prefix hr _))
    b cur l
  exact key hu hB

/-- Resolving an ordinary path with no links on it. -/
theorem walk_straight {fs : FS} {follow : Bool} (b : Nat) (cur : Path) (l : List Str) (ho : AllOrd l)
    (hn : ∀ p t, p <+: cur ++ l → p ≠ cur ++ l ∨ follow = true → fs.nodes p ≠ some (.link t)) :
    (∀ q n, walk fs.nodes follow b cur l = .found q n → q = cur ++ l) ∧ (∀ q, walk fs.nodes follow b cur l = .absent q → q = cur ++ l) := by
  induction l generalizing cur with
  | nil => rw [walk_nil]; exact ⟨by rintro q n ⟨⟩; simp, by rintro q ⟨⟩⟩
  | cons c rest ih =>
    have hc := ho c (by simp)
    have hr : AllOrd rest := fun x hx => ho x (by simp [hx])
    have e : cur ++ c :: rest = cur ++ [c] ++ rest := by simp
    rw [walk_name hc.1 hc.2.1 hc.2.2.1]
    have ih' := ih (cur ++ [c]) hr (by rw [← e]; exact hn)
    cases hx : fs.nodes (cur ++ [c]) with
    | none =>
      simp only
      split
      · rename_i h0; subst h0; exact ⟨by rintro q n ⟨⟩, by rintro q ⟨⟩; rfl⟩
      · exact ⟨by rintro q n ⟨⟩, by rintro q ⟨⟩⟩
    | some n =>
      cases n with
      | dir => simp only; rw [e]; exact ih'
      | file i =>
        simp only
        split
        · rename_i h0; subst h0; exact ⟨by rintro q n ⟨⟩; rfl, by rintro q ⟨⟩⟩
        · exact ⟨by rintro q n ⟨⟩, by rintro q ⟨⟩⟩
      | link t =>
        simp only
        split
        · rename_i h0; rw [h0.1]; exact ⟨by rintro q n ⟨⟩; rfl, by rintro q ⟨⟩⟩
        · rename_i h0
          exfalso
          refine hn (cur ++ [c]) t (by rw [e]; exact List.prefix_append _ _) ?_ hx
          by_cases hr0 : rest = []
          · right
            cases hf : follow with
            | true => rfl
            | false => exact absurd ⟨hr0, hf⟩ h0
          · left; rw [e]; intro h; exact hr0 (by simpa using h)

/-! ### Elementary changes -/

/-- One change to the filesystem that stays inside `B`. `top`: `B` itself may be removed even if it is a directory. `lk`: where links
may be made. -/
inductive Step (B : Path) (prot : Nat → Prop) (top : Prop) (lk : Path → Prop) (fs : FS) : FS → Prop
  | dir (q) : fs.nodes q = none → (∃ r c, q = r ++ [c] ∧ fs.nodes r = some .dir) → (B <+: q ∨ q <+: B) → Step B prot top lk fs (fs.put q .dir)
  | cut (q) : B <+: q → q ≠ [] → (q = B → top ∨ fs.nodes B ≠ some .dir) → Step B prot top lk fs (fs.cut q)
  | cutSome (q rm) : rm [] = false → B <+: q → (q = B → top ∨ fs.nodes B ≠ some .dir) → Step B prot top lk fs (fs.cutSome q rm)
  | create (q m) : fs.nodes q = none → (∃ r c, q = r ++ [c] ∧ fs.nodes r = some .dir) → B <+: q → Step B prot top lk fs (fs.create q m)
  | link (q t) : fs.nodes q = none → (∃ r c, q = r ++ [c] ∧ fs.nodes r = some .dir) → B <+: q → LinkOK B q t → lk q → Step B prot top lk fs (fs.put q (.link t))
  | data (i c) : ¬ prot i → Step B prot top lk fs (fs.setData i c)
  | mode (i m) : ¬ prot i → Step B prot top lk fs (fs.setMode i m)

inductive Steps (B : Path) (prot : Nat → Prop) (top : Prop) (lk : Path → Prop) : FS → FS → Prop
  | refl (fs) : Steps B prot top lk fs fs
  | step {a b c} : Steps B prot top lk a b → Step B prot top lk b c → Steps B prot top lk a c

theorem Steps.trans {B : Path} {prot : Nat → Prop} {top : Prop} {lk : Path → Prop} {a b c : FS} (h1 : Steps B prot top lk a b) (h2 : Steps B prot top lk b c) :
    Steps B prot top lk a c := by
  induction h2 with
  | refl => exact h1
  | step _ s ih => exact .step ih s

theorem Steps.one {B : Path} {prot : Nat → Prop} {top : Prop} {lk : Path → Prop} {a b : FS} (h : Step B prot top lk a b) : Steps B prot top lk a b := .step (.refl _) h

/-- The invariant: everything is as in `fs0` outside `B`; links are harmless; protected files are only outside. -/
structure Inside (B : Path) (fs0 fs : FS) : Prop where
  tree : fs.Tree
  good : Harmless B fs
  out : NothingOutside B fs0 fs
  sep : ∀ p j, B <+: p → fs.nodes p = some (.file j) → ¬ fs0.Outside B j
  next : ∀ j, fs0.Outside B j → j < fs.next

theorem Inside.init {B : Path} {fs : FS} (ht : fs.Tree) (hg : Harmless B fs) (hs : Separate B fs) : Inside B fs fs :=
  ⟨ht, hg, ⟨fun _ _ => Or.inl rfl, fun _ _ => ⟨rfl, rfl⟩⟩, hs.2, fun j ⟨p, _, hp⟩ => hs.1 p j hp⟩

theorem Inside.step {B : Path} {fs0 fs fs' : FS} {top : Prop} {lk : Path → Prop} (h : Inside B fs0 fs) (hs : Step B (fs0.Outside B) top lk fs fs') : Inside B fs0 fs' := by
  have cutLike : ∀ (f : FS), f.Tree → (∀ p, f.nodes p = fs.nodes p ∨ (B <+: p ∧ f.nodes p = none)) → f.data = fs.data → f.mode = fs.mode → f.next = fs.next →
      Inside B fs0 f := by
    intro f tf hn hd hm hx
    have sub : ∀ p n, f.nodes p = some n → fs.nodes p = some n := by
      intro p n hp
      rcases hn p with e | ⟨_, e⟩
      · rw [← e]; exact hp
      · rw [e] at hp; cases hp
    refine ⟨tf, fun q t hq => h.good q t (sub _ _ hq), ⟨fun p hp => ?_, fun j hj => ?_⟩, fun p j hp hj => h.sep p j hp (sub _ _ hj), fun j hj => by rw [hx]; exact h.next j hj⟩
    · rcases hn p with e | ⟨e, _⟩
      · rw [e]; exact h.out.nodes p hp
      · exact absurd e hp
    · rw [hd, hm]; exact h.out.files j hj
  cases hs with
  | dir q hq hp hB =>
    refine ⟨FS.tree_put h.tree hq hp, ?_, ⟨?_, h.out.files⟩, ?_, h.next⟩
    · intro q' t hq'
      simp only [FS.put] at hq'
      split at hq'
      · cases hq'
      · exact h.good q' t hq'
    · intro p hpB
      simp only [FS.put]
      split
      · rename_i e; subst e
        right
        have hB := hB.resolve_left hpB
        rcases h.out.nodes p hpB with e | ⟨e, _⟩
        · exact ⟨by rw [← e]; exact hq, rfl, hB⟩
        · exact ⟨e, rfl, hB⟩
      · exact h.out.nodes p hpB
    · intro p j hpB hj
      simp only [FS.put] at hj
      split at hj
      · cases hj
      · exact h.sep p j hpB hj
  | cut q hB h0 _ =>
    refine cutLike _ (FS.tree_cut h.tree h0) (fun p => ?_) rfl rfl rfl
    simp only [FS.cut]
    split
    · rename_i e; rw [List.isPrefixOf_iff_prefix] at e; right; exact ⟨hB.trans e, rfl⟩
    · exact Or.inl rfl
  | cutSome q rm h0 hB _ =>
    refine cutLike _ (FS.tree_cutSome h.tree h0) (fun p => ?_) rfl rfl rfl
    simp only [FS.cutSome]
    split
    · rename_i e
      right
      simp only [List.any_eq_true, List.mem_range, Bool.and_eq_true] at e
      obtain ⟨k, _, a, _⟩ := e
      rw [List.isPrefixOf_iff_prefix] at a
      exact ⟨hB.trans (a.trans (List.take_prefix _ _)), rfl⟩
    · exact Or.inl rfl
  | create q m hq hp hB =>
    have hprot : ¬ fs0.Outside B fs.next := fun hx => by have := h.next _ hx; omega
    refine ⟨FS.tree_create h.tree hq hp, ?_, ⟨?_, ?_⟩, ?_, ?_⟩
    · intro q' t hq'
      simp only [FS.create] at hq'
      split at hq'
      · cases hq'
      · exact h.good q' t hq'
    · intro p hpB
      simp only [FS.create]
      rw [if_neg (by rintro rfl; exact hpB hB)]
      exact h.out.nodes p hpB
    · intro j hj
      have hne : j ≠ fs.next := by rintro rfl; exact hprot hj
      simp only [FS.create, hne, if_false]
      exact h.out.files j hj
    · intro p j hpB hj
      simp only [FS.create] at hj
      split at hj
      · simp only [Option.some.injEq, Node.file.injEq] at hj; rw [← hj]; exact hprot
      · exact h.sep p j hpB hj
    · intro j hj; have := h.next j hj; simp only [FS.create]; omega
  | link q t hq hp hB hok _ =>
    refine ⟨FS.tree_put h.tree hq hp, ?_, ⟨?_, h.out.files⟩, ?_, h.next⟩
    · intro q' t' hq'
      simp only [FS.put] at hq'
      split at hq'
      · rename_i e; subst e
        simp only [Option.some.injEq, Node.link.injEq] at hq'
        subst hq'
        exact ⟨fun hx => List.IsPrefix.eq_of_length_le hx hB.length_le, fun _ => hok⟩
      · exact h.good q' t' hq'
    · intro p hpB
      simp only [FS.put]
      rw [if_neg (by rintro rfl; exact hpB hB)]
      exact h.out.nodes p hpB
    · intro p j hpB hj
      simp only [FS.put] at hj
      split at hj
      · cases hj
      · exact h.sep p j hpB hj
  | data i c hi =>
    refine ⟨h.tree, h.good, ⟨h.out.nodes, ?_⟩, h.sep, h.next⟩
    intro j hj
    have hne : j ≠ i := by rintro rfl; exact hi hj
    simp only [FS.setData, hne, if_false]
    exact h.out.files j hj
  | mode i m hi =>
    refine ⟨h.tree, h.good, ⟨h.out.nodes, ?_⟩, h.sep, h.next⟩
    intro j hj
    have hne : j ≠ i := by rintro rfl; exact hi hj
    simp only [FS.setMode, hne, if_false]
    exact h.out.files j hj

theorem Inside.steps {B : Path} {fs0 fs fs' : FS} {top : Prop} {lk : Path → Prop} (h : Inside B fs0 fs) (hs : Steps B (fs0.Outside B) top lk fs fs') : Inside B fs0 fs' := by
  induction hs with
  | refl => exact h
  | step _ s ih => exact ih.step s

/-- If `B` is not to be removed, it stays a directory. -/
theorem Steps.keeps {B : Path} {prot : Nat → Prop} {top : Prop} {lk : Path → Prop} (ht : ¬ top) {fs fs' : FS} (hs : Steps B prot top lk fs fs') (hd : fs.nodes B = some .dir) :
    fs'.nodes B = some .dir := by
  induction hs with
  | refl => exact hd
  | @step b c _ s ih =>
    cases s with
    | dir q hq _ _ => simp only [FS.put]; split; rfl; exact ih
    | cut q hB _ hn =>
      simp only [FS.cut]
      rw [if_neg]
      · exact ih
      · intro e
        rw [List.isPrefixOf_iff_prefix] at e
        rcases hn (List.IsPrefix.eq_of_length_le e hB.length_le) with h | h
        · exact ht h
        · exact h ih
    | cutSome q rm _ hB hn =>
      simp only [FS.cutSome]
      rw [if_neg]
      · exact ih
      · intro e
        simp only [List.any_eq_true, List.mem_range, Bool.and_eq_true] at e
        obtain ⟨k, hk, a, _⟩ := e
        rw [List.isPrefixOf_iff_prefix] at a
        have hq : q <+: B := a.trans (List.take_prefix _ _)
        rcases hn (List.IsPrefix.eq_of_length_le hq hB.length_le) with h | h
        · exact ht h
        · exact h ih
    | create q m hq _ _ =>
      simp only [FS.create]
      rw [if_neg (by rintro rfl; rw [hq] at ih; cases ih)]
      exact ih
    | link q t hq _ _ _ _ =>
      simp only [FS.put]
      rw [if_neg (by rintro rfl; rw [hq] at ih; cases ih)]
      exact ih
    | data => exact ih
    | mode => exact ih

/-- Links are only where they were, or where they may be made. -/
theorem Steps.links {B : Path} {prot : Nat → Prop} {top : Prop} {lk : Path → Prop} {fs fs' : FS} (hs : Steps B prot top lk fs fs')
    {q : Path} {t : Str} (h : fs'.nodes q = some (.link t)) : fs.nodes q = some (.link t) ∨ lk q := by
  induction hs generalizing t with
  | refl => exact Or.inl h
  | @step b c _ s ih =>
    cases s with
    | dir p => simp only [FS.put] at h; split at h; cases h; exact ih h
    | cut p => simp only [FS.cut] at h; split at h; cases h; exact ih h
    | cutSome p rm => simp only [FS.cutSome] at h; split at h; cases h; exact ih h
    | create p m => simp only [FS.create] at h; split at h; cases h; exact ih h
    | link p u _ _ _ _ hl =>
      simp only [FS.put] at h
      split at h
      · rename_i e; rw [e]; exact Or.inr hl
      · exact ih h
    | data => exact ih h
    | mode => exact ih h

end Savior
