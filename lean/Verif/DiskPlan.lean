import Verif.Contain
import Verif.FolderMore
import Verif.Spec.Disk
/-!
# What FolderSink's operations do to a set of independent places
-/

namespace Savior

/-- Places with the kinds of entries put there. -/
structure Planned (S : Path → Kind → Prop) : Prop where
  ord : ∀ L k, S L k → AllOrd L
  apart : ∀ L k L' k', S L k → S L' k' → L ≠ L' → L <+: L' → k = .dir

structure DiskOK (S : Path → Kind → Prop) (fs : FS) : Prop where
  tree : fs.Tree
  straight : ∀ L k r t, S L k → r <+: L → r ≠ L → fs.nodes r ≠ some (.link t)
  alone : ∀ L k L' k' i, S L k → S L' k' → fs.nodes L = some (.file i) → fs.nodes L' = some (.file i) → L = L'
  low : ∀ L k i, S L k → fs.nodes L = some (.file i) → i < fs.next

/-- Places other than `Q` keep what they hold. -/
def Keeps (S : Path → Kind → Prop) (Q : Path) (fs fs' : FS) : Prop :=
  ∀ L k n, S L k → L ≠ Q → fs.holds L = some n → fs'.holds L = some n

theorem Keeps.refl (S : Path → Kind → Prop) (Q : Path) (fs : FS) : Keeps S Q fs fs := fun _ _ _ _ _ h => h
theorem Keeps.trans {S : Path → Kind → Prop} {Q : Path} {a b c : FS} (h : Keeps S Q a b) (k : Keeps S Q b c) : Keeps S Q a c :=
  fun L kd n hs hne hn => k L kd n hs hne (h L kd n hs hne hn)

theorem holds_congr {fs fs' : FS} {L : Path} (h : fs'.nodes L = fs.nodes L) (hd : ∀ i, fs.nodes L = some (.file i) → fs'.data i = fs.data i) :
    fs'.holds L = fs.holds L := by
  unfold FS.holds
  rw [h]
  cases hn : fs.nodes L with
  | none => rfl
  | some n =>
    cases n with
    | dir => rfl
    | link t => rfl
    | file i => simp only [hd i hn]

theorem holds_some {fs : FS} {L : Path} {n : PNode} (h : fs.holds L = some n) : ∃ m, fs.nodes L = some m := by
  unfold FS.holds at h
  cases hn : fs.nodes L with
  | none => rw [hn] at h; cases h
  | some m => exact ⟨m, rfl⟩

theorem holds_file {fs : FS} {L : Path} {c : List Byte} (h : fs.holds L = some (.file c)) : ∃ i, fs.nodes L = some (.file i) ∧ fs.data i = c := by
  unfold FS.holds at h
  split at h <;> try cases h
  rename_i i hn
  exact ⟨i, hn, rfl⟩

theorem stat_dir {fs : FS} (ht : fs.Tree) : ∀ {L : Path}, AllOrd L → fs.nodes L = some .dir → fs.stat L = .found L .dir := by
  intro L
  induction hlen : L.length generalizing L with
  | zero =>
    intro _ _
    obtain rfl := List.length_eq_zero_iff.mp hlen
    exact walk_nil
  | succ k ih =>
    intro ho hn
    rcases List.eq_nil_or_concat L with rfl | ⟨D, c, rfl⟩
    · cases hlen
    rw [List.concat_eq_append] at *
    have hd := ih (L := D) (by simpa using hlen) (fun x hx => ho x (by simp [hx])) (ht.2 D c (by rw [hn]; simp))
    have hl := FS.lstat_snoc (fs := fs) (ho c (by simp)) D
    rw [hd] at hl
    simp only [hn] at hl
    rw [FS.stat_eq (by rw [hl]; simp), hl]

theorem lstat_node {fs : FS} (ht : fs.Tree) {L : Path} (ho : AllOrd L) {n : Node} (hn : fs.nodes L = some n) : fs.lstat L = .found L n := by
  rcases List.eq_nil_or_concat L with rfl | ⟨D, c, rfl⟩
  · rw [ht.1] at hn; cases hn; exact walk_nil
  rw [List.concat_eq_append] at *
  have hd := stat_dir ht (fun x hx => ho x (by simp [hx])) (ht.2 D c (by rw [hn]; simp))
  have hl := FS.lstat_snoc (fs := fs) (ho c (by simp)) D
  rw [hd] at hl
  simpa only [hn] using hl

section
variable {S : Path → Kind → Prop} {fs fs' : FS}

theorem DiskOK.found (h : DiskOK S fs) (hS : Planned S) {L : Path} {k : Kind} (hL : S L k) {q : Path} {n : Node} (hf : fs.lstat L = .found q n) :
    q = L ∧ fs.nodes L = some n := by
  have := (walk_straight (fs := fs) (follow := false) 40 [] L (hS.ord L k hL)
    (by intro p t hp hne; simp only [List.nil_append] at hp hne; exact h.straight L k p t hL hp (by simpa using hne))).1 q n hf
  simp only [List.nil_append] at this
  subst this
  exact ⟨rfl, FS.lstat_real h.tree hf⟩

theorem DiskOK.absent (h : DiskOK S fs) (hS : Planned S) {L : Path} {k : Kind} (hL : S L k) {q : Path} (hf : fs.lstat L = .absent q) : q = L := by
  have := (walk_straight (fs := fs) (follow := false) 40 [] L (hS.ord L k hL)
    (by intro p t hp hne; simp only [List.nil_append] at hp hne; exact h.straight L k p t hL hp (by simpa using hne))).2 q hf
  simpa using this

/-- New folders where nothing was. -/
theorem DiskOK.grown (h : DiskOK S fs) (g : fs.Grown fs') (t : fs'.Tree) (Q : Path) : DiskOK S fs' ∧ Keeps S Q fs fs' := by
  have file : ∀ L i, fs'.nodes L = some (.file i) → fs.nodes L = some (.file i) := by
    intro L i hi
    rcases g.nodes L with e | ⟨_, e⟩
    · rw [← e]; exact hi
    · rw [e] at hi; cases hi
  refine ⟨⟨t, ?_, ?_, ?_⟩, ?_⟩
  · intro L k r u hL hr hne hu
    rcases g.nodes r with e | ⟨_, e⟩
    · exact h.straight L k r u hL hr hne (by rw [← e]; exact hu)
    · rw [e] at hu; cases hu
  · intro L k L' k' i a b c d; exact h.alone L k L' k' i a b (file _ _ c) (file _ _ d)
  · intro L k i a b; rw [g.next]; exact h.low L k i a (file _ _ b)
  · intro L k n _ _ hn
    obtain ⟨m, hm⟩ := holds_some hn
    rw [← hn]
    exact holds_congr (by rw [g.mono _ _ hm, hm]) (fun i _ => by rw [g.data])

/-- Something removed. -/
theorem DiskOK.shrunk (h : DiskOK S fs) (t : fs'.Tree) (hn : ∀ p, fs'.nodes p = fs.nodes p ∨ fs'.nodes p = none) (hx : fs'.next = fs.next) : DiskOK S fs' := by
  have keep : ∀ p n, fs'.nodes p = some n → fs.nodes p = some n := by
    intro p n hp
    rcases hn p with e | e
    · rw [← e]; exact hp
    · rw [e] at hp; cases hp
  exact ⟨t, fun L k r u a b c d => h.straight L k r u a b c (keep _ _ d), fun L k L' k' i a b c d => h.alone L k L' k' i a b (keep _ _ c) (keep _ _ d),
    fun L k i a b => by rw [hx]; exact h.low L k i a (keep _ _ b)⟩

/-- Only inodes' contents and permissions. -/
theorem DiskOK.same (h : DiskOK S fs) (hn : fs'.nodes = fs.nodes) (hx : fs'.next = fs.next) : DiskOK S fs' := by
  refine ⟨?_, ?_, ?_, ?_⟩
  · unfold FS.Tree; rw [hn]; exact h.tree
  · rw [hn]; exact h.straight
  · rw [hn]; exact h.alone
  · rw [hn, hx]; exact h.low

/-- The file at `Q` changed. -/
theorem DiskOK.setData (h : DiskOK S fs) {Q : Path} {k : Kind} (hQ : S Q k) {i : Nat} (hi : fs.nodes Q = some (.file i)) (c : List Byte) :
    DiskOK S (fs.setData i c) ∧ Keeps S Q fs (fs.setData i c) ∧ (fs.setData i c).holds Q = some (.file c) := by
  refine ⟨h.same rfl rfl, ?_, ?_⟩
  · intro L kd n hL hne hn
    rw [← hn]
    refine holds_congr rfl ?_
    intro j hj
    show (if j = i then c else fs.data j) = _
    rw [if_neg (fun e => hne (h.alone L kd Q k i hL hQ (by rw [← e]; exact hj) hi))]
  · unfold FS.holds
    show (match fs.nodes Q with | none => none | some .dir => some PNode.dir | some (.link t) => some (.link t) | some (.file i') => some (.file ((fs.setData i c).data i'))) = _
    rw [hi]
    simp [FS.setData]

theorem DiskOK.setMode (h : DiskOK S fs) (i m : Nat) : DiskOK S (fs.setMode i m) ∧ ∀ L, (fs.setMode i m).holds L = fs.holds L :=
  ⟨h.same rfl rfl, fun _ => rfl⟩

/-- A new file at `Q`. -/
theorem DiskOK.create (h : DiskOK S fs) (hS : Planned S) {Q : Path} (hQ : S Q .file) (hn : fs.nodes Q = none) (hp : ∃ r c, Q = r ++ [c] ∧ fs.nodes r = some .dir) (m : Nat) :
    DiskOK S (fs.create Q m) ∧ Keeps S Q fs (fs.create Q m) ∧ (fs.create Q m).nodes Q = some (.file fs.next) := by
  have hne : ∀ L, L ≠ Q → (fs.create Q m).nodes L = fs.nodes L := by intro L hL; simp [FS.create, hL]
  have hq : (fs.create Q m).nodes Q = some (.file fs.next) := by simp [FS.create]
  refine ⟨⟨FS.tree_create h.tree hn hp, ?_, ?_, ?_⟩, ?_, hq⟩
  · intro L k r t hL hr hne' ht
    by_cases e : r = Q
    · subst e; rw [hq] at ht; cases ht
    · rw [hne r e] at ht; exact h.straight L k r t hL hr hne' ht
  · intro L k L' k' i a b c d
    by_cases e : L = Q
    · subst e
      rw [hq] at c
      by_cases e' : L' = L
      · exact e'.symm
      · rw [hne L' e'] at d
        have := h.low L' k' i b d
        simp only [Option.some.injEq, Node.file.injEq] at c
        omega
    · rw [hne L e] at c
      by_cases e' : L' = Q
      · subst e'
        rw [hq] at d
        have := h.low L k i a c
        simp only [Option.some.injEq, Node.file.injEq] at d
        omega
      · rw [hne L' e'] at d; exact h.alone L k L' k' i a b c d
  · intro L k i a b
    show i < fs.next + 1
    by_cases e : L = Q
    · subst e; rw [hq] at b; simp only [Option.some.injEq, Node.file.injEq] at b; omega
    · rw [hne L e] at b; have := h.low L k i a b; omega
  · intro L k n hL hl hn'
    rw [← hn']
    refine holds_congr (hne L hl) ?_
    intro i hi
    have := h.low L k i hL hi
    show (if i = fs.next then [] else fs.data i) = _
    rw [if_neg (by omega)]

/-- A new link at `Q`. -/
theorem DiskOK.putLink (h : DiskOK S fs) (hS : Planned S) {Q : Path} (hQ : S Q .symlink) (hn : fs.nodes Q = none) (hp : ∃ r c, Q = r ++ [c] ∧ fs.nodes r = some .dir) (t : Str) :
    DiskOK S (fs.put Q (.link t)) ∧ Keeps S Q fs (fs.put Q (.link t)) ∧ (fs.put Q (.link t)).holds Q = some (.link t) := by
  have hne : ∀ L, L ≠ Q → (fs.put Q (.link t)).nodes L = fs.nodes L := by intro L hL; simp [FS.put, hL]
  have hq : (fs.put Q (.link t)).nodes Q = some (.link t) := by simp [FS.put]
  have file : ∀ L i, (fs.put Q (.link t)).nodes L = some (.file i) → fs.nodes L = some (.file i) := by
    intro L i hi
    by_cases e : L = Q
    · subst e; rw [hq] at hi; cases hi
    · rw [← hne L e]; exact hi
  refine ⟨⟨FS.tree_put h.tree hn hp, ?_, ?_, ?_⟩, ?_, ?_⟩
  · intro L k r u hL hr hne' ht
    by_cases e : r = Q
    · subst e
      have := hS.apart r .symlink L k hQ hL hne' hr
      cases this
    · rw [hne r e] at ht; exact h.straight L k r u hL hr hne' ht
  · intro L k L' k' i a b c d; exact h.alone L k L' k' i a b (file _ _ c) (file _ _ d)
  · intro L k i a b; exact h.low L k i a (file _ _ b)
  · intro L k n hL hl hn'
    rw [← hn']
    exact holds_congr (hne L hl) (fun _ _ => rfl)
  · unfold FS.holds; rw [hq]

/-- Everything at and below `Q` gone, or some of it, for a place that has no others below. -/
theorem DiskOK.cutAt (h : DiskOK S fs) (t : fs'.Tree) {Q : Path} (hx : fs'.next = fs.next) (hd : fs'.data = fs.data)
    (hn : ∀ p, fs'.nodes p = fs.nodes p ∨ (fs'.nodes p = none ∧ Q <+: p)) (hQ : ∀ L k m, S L k → L ≠ Q → Q <+: L → fs.nodes L = some m → False) :
    DiskOK S fs' ∧ Keeps S Q fs fs' := by
  refine ⟨h.shrunk t (fun p => (hn p).imp id And.left) hx, ?_⟩
  intro L k n hL hl hn'
  obtain ⟨m, hm⟩ := holds_some hn'
  rcases hn L with e | ⟨_, e⟩
  · rw [← hn']; exact holds_congr e (fun i _ => by rw [hd])
  · exact (hQ L k m hL hl e hm).elim

theorem cut_nodes (fs : FS) (q p : Path) : (fs.cut q).nodes p = fs.nodes p ∨ ((fs.cut q).nodes p = none ∧ q <+: p) := by
  simp only [FS.cut]
  by_cases h : q.isPrefixOf p = true
  · right; rw [if_pos h]; exact ⟨rfl, List.isPrefixOf_iff_prefix.mp h⟩
  · left; rw [if_neg h]

theorem cutSome_nodes (fs : FS) (q : Path) (rm : Path → Bool) (p : Path) :
    (fs.cutSome q rm).nodes p = fs.nodes p ∨ ((fs.cutSome q rm).nodes p = none ∧ q <+: p) := by
  simp only [FS.cutSome]
  split
  · rename_i h
    right
    refine ⟨rfl, ?_⟩
    rw [List.any_eq_true] at h
    obtain ⟨k, _, hk⟩ := h
    rw [Bool.and_eq_true] at hk
    exact (List.isPrefixOf_iff_prefix.mp hk.1).trans (List.take_prefix _ _)
  · left; rfl

/-- Exactly what goes when some subtrees are removed: what is at or below a picked place at or below `q`. -/
theorem cutSome_gone (fs : FS) (q : Path) (rm : Path → Bool) (p : Path) :
    ((∃ a, q <+: a ∧ a <+: p ∧ rm a = true) → (fs.cutSome q rm).nodes p = none) ∧
    ((∀ a, q <+: a → a <+: p → rm a = false) → (fs.cutSome q rm).nodes p = fs.nodes p) := by
  simp only [FS.cutSome]
  constructor
  · rintro ⟨a, ha, hp, hr⟩
    rw [if_pos]
    rw [List.any_eq_true]
    refine ⟨a.length, List.mem_range.2 (Nat.lt_succ_of_le hp.length_le), ?_⟩
    rw [← List.prefix_iff_eq_take.mp hp, hr, Bool.and_true]
    exact List.isPrefixOf_iff_prefix.mpr ha
  · intro h
    rw [if_neg]
    rw [List.any_eq_true]
    rintro ⟨k, _, hk⟩
    rw [Bool.and_eq_true] at hk
    rw [h _ (List.isPrefixOf_iff_prefix.mp hk.1) (List.take_prefix _ _)] at hk
    exact absurd hk.2 (by simp)

/-- `RemoveAll` of a place that has no others below it. -/
theorem DiskOK.removeAll (hS : Planned S) (flt : Faults) {s : OS} (h : DiskOK S s.fs) {Q : Path} {k : Kind} (hQ : S Q k) (hk : k ≠ .dir) :
    DiskOK S (s.removeAll flt Q).2.fs ∧ Keeps S Q s.fs (s.removeAll flt Q).2.fs ∧ ((s.removeAll flt Q).1 = none → (s.removeAll flt Q).2.fs.nodes Q = none) := by
  have hno : ∀ L kd m, S L kd → L ≠ Q → Q <+: L → s.fs.nodes L = some m → False :=
    fun L kd _ hL hne hp _ => hk (hS.apart Q k L kd hQ hL (Ne.symm hne) hp)
  have ht := OS.removeAll_tree flt Q s h.tree
  rcases OS.removeAll_cases flt Q s with ⟨e, e2⟩ | ⟨q, n, rm, hf, hbad, h0, e⟩ | ⟨q, n, hf, h0, _, e⟩
  · rw [e]
    refine ⟨h, .refl S Q _, fun hok => ?_⟩
    cases hn : s.fs.nodes Q with
    | none => rfl
    | some m => exact absurd (lstat_node h.tree (hS.ord Q k hQ) hn) (e2 hok Q m)
  · obtain ⟨rfl, hn⟩ := h.found hS hQ hf
    rw [e] at ht ⊢
    obtain ⟨a, b⟩ := h.cutAt ht rfl rfl (cutSome_nodes _ _ _) hno
    exact ⟨a, b, fun hok => absurd hok hbad⟩
  · obtain ⟨rfl, hn⟩ := h.found hS hQ hf
    rw [e] at ht ⊢
    obtain ⟨a, b⟩ := h.cutAt ht rfl rfl (cut_nodes _ _) hno
    refine ⟨a, b, fun _ => ?_⟩
    simp [FS.cut]

/-- `Remove` of something that is not a folder. -/
theorem DiskOK.remove (hS : Planned S) (flt : Faults) {s : OS} (h : DiskOK S s.fs) {Q : Path} {k : Kind} (hQ : S Q k) :
    DiskOK S (s.remove flt Q).2.fs ∧ Keeps S Q s.fs (s.remove flt Q).2.fs ∧ ((s.remove flt Q).1 = none → (s.remove flt Q).2.fs.nodes Q = none) := by
  rcases OS.remove_cases flt Q s with ⟨e, e1, e2⟩ | ⟨q, n, hf, hd, _, e⟩
  · rw [e2]; exact ⟨h, .refl S Q _, fun hok => by rw [e1] at hok; cases hok⟩
  · obtain ⟨rfl, hn⟩ := h.found hS hQ hf
    have hq0 : q ≠ [] := by rintro rfl; rw [h.tree.1] at hn; cases hn; exact hd rfl
    rw [e]
    have hno : ∀ L kd m, S L kd → L ≠ q → q <+: L → s.fs.nodes L = some m → False := by
      rintro L kd m hL hne ⟨x, rfl⟩ hm
      have := tree_below h.tree (q := q) (by rw [hn]; simpa using hd) x (by rintro rfl; simp at hne)
      rw [this] at hm; cases hm
    obtain ⟨a, b⟩ := h.cutAt (FS.tree_cut h.tree hq0) rfl rfl (cut_nodes _ _) hno
    exact ⟨a, b, fun _ => by simp [FS.cut]⟩

theorem DiskOK.mkdirAll (flt : Faults) {s : OS} (h : DiskOK S s.fs) (R Q : Path) :
    DiskOK S (s.mkdirAll flt R).2.fs ∧ Keeps S Q s.fs (s.mkdirAll flt R).2.fs ∧ s.fs.Grown (s.mkdirAll flt R).2.fs := by
  obtain ⟨g, t, _⟩ := OS.mkdirAll_spec flt R s h.tree
  obtain ⟨a, b⟩ := h.grown g t Q
  exact ⟨a, b, g⟩

/-- After a successful `MkdirAll` of a place reached without links, a folder is there. -/
theorem DiskOK.mkdirAll_here (hS : Planned S) (flt : Faults) {s : OS} (h : DiskOK S s.fs) {Q : Path} {k : Kind} (hQ : S Q k)
    (hl : ∀ t, s.fs.nodes Q ≠ some (.link t)) (hok : (s.mkdirAll flt Q).1 = none) : (s.mkdirAll flt Q).2.fs.nodes Q = some .dir := by
  obtain ⟨g, t, sp⟩ := OS.mkdirAll_spec flt Q s h.tree
  obtain ⟨q, hq⟩ := sp hok
  have h' := (h.grown g t Q).1
  have hl' : ∀ t, (s.mkdirAll flt Q).2.fs.nodes Q ≠ some (.link t) := by
    intro u hu
    rcases g.nodes Q with e | ⟨_, e⟩
    · exact hl u (by rw [← e]; exact hu)
    · rw [e] at hu; cases hu
  have hst : (s.mkdirAll flt Q).2.fs.stat Q = (s.mkdirAll flt Q).2.fs.lstat Q := by
    refine FS.stat_eq ?_
    intro q' u hf
    obtain ⟨_, hn⟩ := h'.found hS hQ hf
    exact hl' u hn
  rw [hst] at hq
  exact (h'.found hS hQ hq).2

end
end Savior
