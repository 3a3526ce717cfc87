import Verif.DiskSink
import Verif.Spec.Ready
/-!
# System calls that do not fail
-/

namespace Savior

namespace OS
variable {flt : Faults}

theorem Calm.now {s : OS} (h : s.Calm flt) : flt s.tick = none := h _ (Nat.le_refl _)
theorem Calm.later {s s' : OS} (h : s.Calm flt) (ht : s.tick ≤ s'.tick) : s'.Calm flt := fun t hle => h t (Nat.le_trans ht hle)

theorem mkdir1_tick (p : Path) (s : OS) : s.tick ≤ (mkdir1 flt p s).2.tick := by
  unfold mkdir1; repeat' (first | exact Nat.le_succ _ | split)

theorem mkdirAllN_tick (p : Path) (n : Nat) (s : OS) : s.tick ≤ (mkdirAllN flt p n s).2.tick := by
  induction n with
  | zero => exact Nat.le_refl _
  | succ n ih =>
    unfold mkdirAllN
    have h2 := Nat.le_trans ih (mkdir1_tick (flt := flt) (p.take (n + 1)) (mkdirAllN flt p n s).2)
    simp only
    repeat' (first | exact Nat.le_refl _ | exact ih | exact h2 | split)

theorem mkdirAll_tick (p : Path) (s : OS) : s.tick ≤ (mkdirAll flt p s).2.tick := mkdirAllN_tick _ _ _

theorem remove_tick (p : Path) (s : OS) : s.tick ≤ (remove flt p s).2.tick := by
  unfold remove; repeat' (first | exact Nat.le_succ _ | split)

theorem removeAll_tick (p : Path) (s : OS) : s.tick ≤ (removeAll flt p s).2.tick := by
  unfold removeAll; repeat' (first | exact Nat.le_succ _ | split)

theorem openCreate_tick (um : Nat) (p : Path) (m : Nat) (s : OS) : s.tick ≤ (openCreate flt um p m s).2.tick := by
  unfold openCreate; repeat' (first | exact Nat.le_succ _ | split)

theorem symlink1_tick (t : Str) (p : Path) (s : OS) : s.tick ≤ (symlink1 flt t p s).2.tick := by
  unfold symlink1; repeat' (first | exact Nat.le_succ _ | split)

theorem chmod_tick (i m : Nat) (s : OS) : s.tick ≤ (chmod flt i m s).2.tick := by
  unfold chmod; repeat' (first | exact Nat.le_succ _ | split)

theorem truncate_tick (i : Nat) (n : Int) (s : OS) : s.tick ≤ (truncate flt i n s).2.tick := by
  unfold truncate; repeat' (first | exact Nat.le_succ _ | split)

theorem write_tick (i o : Nat) (bs : List Byte) (s : OS) : s.tick ≤ (write flt i o bs s).2.tick := by
  unfold write; repeat' (first | exact Nat.le_succ _ | split)

theorem quietCall_tick (s : OS) : s.tick ≤ (quietCall flt s).2.tick := by
  unfold quietCall; repeat' (first | exact Nat.le_succ _ | split)

theorem quietCall_calm {s : OS} (h : s.Calm flt) : (quietCall flt s).1 = none := by
  unfold quietCall; rw [h.now]

end OS

theorem take_prefix_succ {p : Path} {n : Nat} (h : n < p.length) : p.take (n + 1) = p.take n ++ [p[n]] := by
  simp

/-- `Lstat` and `Stat` of a path on whose way are folders or nothing, and whose folder exists. -/
theorem lstat_step {fs : FS} (ht : fs.Tree) {D : Path} {c : Str} (hD : AllOrd D) (hc : Ordinary c) (hd : fs.nodes D = some .dir) :
    fs.lstat (D ++ [c]) = (match fs.nodes (D ++ [c]) with | none => .absent (D ++ [c]) | some n => .found (D ++ [c]) n) := by
  have hl := FS.lstat_snoc (fs := fs) hc D
  rw [stat_dir ht hD hd] at hl
  exact hl

/-- `MkdirAll` only makes folders on the way, if there are no links on it. -/
theorem mkdirAllN_where (flt : Faults) {p : Path} (hp : AllOrd p) (n : Nat) {s : OS} (ht : s.fs.Tree)
    (hw : ∀ r t, r <+: p → s.fs.nodes r ≠ some (.link t)) (r : Path) :
    (OS.mkdirAllN flt p n s).2.fs.nodes r = s.fs.nodes r ∨ (r <+: p ∧ (OS.mkdirAllN flt p n s).2.fs.nodes r = some .dir) := by
  induction n with
  | zero => exact Or.inl rfl
  | succ n ih =>
    unfold OS.mkdirAllN
    simp only
    obtain ⟨g, t, _⟩ := OS.mkdirAllN_spec flt p n s ht
    generalize OS.mkdirAllN flt p n s = R at *
    obtain ⟨r1, r2⟩ := R
    simp only at ih g t ⊢
    have hm : (OS.mkdir1 flt (p.take (n + 1)) r2).2.fs.nodes r = s.fs.nodes r ∨
        (r <+: p ∧ (OS.mkdir1 flt (p.take (n + 1)) r2).2.fs.nodes r = some .dir) := by
      rcases OS.mkdir1_cases flt (p.take (n + 1)) r2 with ⟨e, a, b⟩ | ⟨q, a, b, d⟩
      · rw [b]; exact ih
      · have hq : q = p.take (n + 1) := by
          have := (walk_straight (fs := r2.fs) (follow := false) 40 [] (p.take (n + 1)) (fun x hx => hp x (List.mem_of_mem_take hx)) (by
            intro x u hx hne
            simp only [List.nil_append] at hx
            have hxp : x <+: p := hx.trans (List.take_prefix _ _)
            rcases g.nodes x with e | ⟨_, e⟩
            · rw [e]; exact hw x u hxp
            · rw [e]; simp)).2 q b
          simpa using this
        rw [d]
        simp only [FS.put]
        by_cases hr : r = q
        · right
          rw [if_pos hr, hr, hq]
          exact ⟨List.take_prefix _ _, rfl⟩
        · rw [if_neg hr]; exact ih
    split
    · exact Or.inl rfl
    · exact Or.inl rfl
    · split
      · exact ih
      · split
        · exact hm
        · split <;> exact hm

/-- `MkdirAll` succeeds if nothing but folders is on the way and no call fails. -/
theorem mkdirAllN_calm (flt : Faults) {p : Path} (hp : AllOrd p) (n : Nat) (hn : n ≤ p.length) {s : OS} (ht : s.fs.Tree) (hc : s.Calm flt)
    (hw : ∀ r, r <+: p → s.fs.nodes r = none ∨ s.fs.nodes r = some .dir) :
    (OS.mkdirAllN flt p n s).1 = none ∧ (OS.mkdirAllN flt p n s).2.fs.nodes (p.take n) = some .dir := by
  induction n with
  | zero => exact ⟨rfl, by simpa [OS.mkdirAllN] using ht.1⟩
  | succ n ih =>
    obtain ⟨i1, i2⟩ := ih (by omega)
    have hlt : n < p.length := by omega
    have htk : p.take (n + 1) = p.take n ++ [p[n]] := by simp
    have ho : AllOrd (p.take n) := fun x hx => hp x (List.mem_of_mem_take hx)
    have ho1 : AllOrd (p.take (n + 1)) := fun x hx => hp x (List.mem_of_mem_take hx)
    have hcn : Ordinary p[n] := hp _ (List.getElem_mem _)
    unfold OS.mkdirAllN
    simp only
    obtain ⟨g, t, _⟩ := OS.mkdirAllN_spec flt p n s ht
    have tk := OS.mkdirAllN_tick (flt := flt) p n s
    generalize OS.mkdirAllN flt p n s = R at *
    obtain ⟨r1, r2⟩ := R
    simp only at i1 i2 g t tk ⊢
    subst i1
    have hmk : (match (none : Option Err) with
        | some e => (some e, r2)
        | none => match (OS.mkdir1 flt (p.take (n + 1)) r2).1 with
          | none => (none, (OS.mkdir1 flt (p.take (n + 1)) r2).2)
          | some e => match (OS.mkdir1 flt (p.take (n + 1)) r2).2.fs.lstat (p.take (n + 1)) with
            | .found _ .dir => (none, (OS.mkdir1 flt (p.take (n + 1)) r2).2)
            | _ => (some e, (OS.mkdir1 flt (p.take (n + 1)) r2).2)).1 = none ∧
        (match (none : Option Err) with
        | some e => (some e, r2)
        | none => match (OS.mkdir1 flt (p.take (n + 1)) r2).1 with
          | none => (none, (OS.mkdir1 flt (p.take (n + 1)) r2).2)
          | some e => match (OS.mkdir1 flt (p.take (n + 1)) r2).2.fs.lstat (p.take (n + 1)) with
            | .found _ .dir => (none, (OS.mkdir1 flt (p.take (n + 1)) r2).2)
            | _ => (some e, (OS.mkdir1 flt (p.take (n + 1)) r2).2)).2.fs.nodes (p.take (n + 1)) = some .dir := by
      simp only
      have hl := lstat_step t ho hcn i2
      rw [← htk] at hl
      have hnode : r2.fs.nodes (p.take (n + 1)) = none ∨ r2.fs.nodes (p.take (n + 1)) = some .dir := by
        rcases g.nodes (p.take (n + 1)) with e | ⟨_, e⟩
        · rw [e]; exact hw _ (List.take_prefix _ _)
        · exact Or.inr e
      unfold OS.mkdir1
      rw [(hc.later tk).now]
      simp only
      rcases hnode with e | e
      · rw [e] at hl
        rw [hl]
        simp [FS.put]
      · rw [e] at hl
        simp only [hl]
        exact ⟨trivial, e⟩
    cases hst : s.fs.stat (p.take (n + 1)) with
    | absent q => exact hmk
    | bad e => exact hmk
    | found q nd =>
      have hl : s.fs.stat (p.take (n + 1)) = s.fs.lstat (p.take (n + 1)) := by
        refine FS.stat_eq ?_
        intro q' u hf
        have hq := (walk_straight (fs := s.fs) (follow := false) 40 [] (p.take (n + 1)) ho1 (by
          intro x v hx _
          simp only [List.nil_append] at hx
          rcases hw x (hx.trans (List.take_prefix _ _)) with e | e <;> rw [e] <;> simp)).1 q' _ hf
        have := FS.lstat_real ht hf
        rw [hq, List.nil_append] at this
        rcases hw _ (List.take_prefix (n + 1) p) with e | e <;> rw [e] at this <;> cases this
      rw [hst] at hl
      have hq := (walk_straight (fs := s.fs) (follow := false) 40 [] (p.take (n + 1)) ho1 (by
          intro x v hx _
          simp only [List.nil_append] at hx
          rcases hw x (hx.trans (List.take_prefix _ _)) with e | e <;> rw [e] <;> simp)).1 q nd hl.symm
      have hn2 := FS.lstat_real ht hl.symm
      rw [hq, List.nil_append] at hn2
      have : nd = .dir := by
        rcases hw _ (List.take_prefix (n + 1) p) with e | e <;> rw [e] at hn2 <;> cases hn2
        rfl
      subst this
      exact ⟨rfl, hn2⟩

theorem mkdirAll_calm (flt : Faults) {p : Path} (hp : AllOrd p) {s : OS} (ht : s.fs.Tree) (hc : s.Calm flt)
    (hw : ∀ r, r <+: p → s.fs.nodes r = none ∨ s.fs.nodes r = some .dir) :
    (s.mkdirAll flt p).1 = none ∧ (s.mkdirAll flt p).2.fs.nodes p = some .dir := by
  have := mkdirAllN_calm flt hp p.length (Nat.le_refl _) ht hc hw
  rwa [List.take_length] at this

/-! ## Room -/

/-- The disk is as `DiskOK`, and there is room. -/
structure Roomy (S : Path → Kind → Prop) (fs : FS) : Prop extends DiskOK S fs where
  above : ∀ L k r, S L k → r <+: L → r ≠ L → fs.nodes r = none ∨ fs.nodes r = some .dir
  free : ∀ L, S L .file → fs.nodes L ≠ some .dir

/-- Places that are not both a file's and a folder's, nor the root. -/
structure PlannedK (S : Path → Kind → Prop) : Prop extends Planned S where
  kinds : ∀ L, S L .file → S L .dir → False
  deep : ∀ L k, S L k → L ≠ []

section
variable {S : Path → Kind → Prop} {fs fs' : FS}

theorem Roomy.shrunk (h : Roomy S fs) (hd : DiskOK S fs') (hn : ∀ p, fs'.nodes p = fs.nodes p ∨ fs'.nodes p = none) : Roomy S fs' := by
  refine { hd with above := ?_, free := ?_ }
  · intro L k r hL hr hne
    rcases hn r with e | e
    · rw [e]; exact h.above L k r hL hr hne
    · exact Or.inl e
  · intro L hL
    rcases hn L with e | e
    · rw [e]; exact h.free L hL
    · rw [e]; simp

theorem Roomy.same (h : Roomy S fs) (hd : DiskOK S fs') (hn : fs'.nodes = fs.nodes) : Roomy S fs' :=
  h.shrunk hd (fun p => Or.inl (by rw [hn]))

/-- Something that is not a folder at a place that is not a folder's. -/
theorem Roomy.put (h : Roomy S fs) (hS : Planned S) (hd : DiskOK S fs') {Q : Path} {k : Kind} (hQ : S Q k) (hk : k ≠ .dir) (hq : fs'.nodes Q ≠ some .dir)
    (hn : ∀ p, p ≠ Q → fs'.nodes p = fs.nodes p) : Roomy S fs' := by
  refine { hd with above := ?_, free := ?_ }
  · intro L kd r hL hr hne
    by_cases e : r = Q
    · subst e; exact absurd (hS.apart r k L kd hQ hL hne hr) hk
    · rw [hn r e]; exact h.above L kd r hL hr hne
  · intro L hL
    by_cases e : L = Q
    · subst e; exact hq
    · rw [hn L e]; exact h.free L hL

/-- New folders, on the way to a place. -/
theorem Roomy.mkdirAll (h : Roomy S fs) (hS : PlannedK S) (hd : DiskOK S fs') {R L : Path} {k : Kind} (hL : S L k) (hR : R <+: L) (hk : k = .dir ∨ R ≠ L)
    (hn : ∀ r, fs'.nodes r = fs.nodes r ∨ (r <+: R ∧ fs'.nodes r = some .dir)) : Roomy S fs' := by
  refine { hd with above := ?_, free := ?_ }
  · intro L' k' r hL' hr hne
    rcases hn r with e | ⟨_, e⟩
    · rw [e]; exact h.above L' k' r hL' hr hne
    · exact Or.inr e
  · intro L' hL' hdir
    rcases hn L' with e | ⟨e1, e2⟩
    · rw [e] at hdir; exact h.free L' hL' hdir
    · by_cases e : L' = L
      · subst e
        rcases hk with hk | hk
        · subst hk; exact hS.kinds L' hL' hL
        · exact hk (hR.eq_of_length_le (e1.length_le))
      · have := hS.apart L' .file L k hL' hL e (e1.trans hR)
        cases this

/-- On the way to a place there are only folders and gaps: `Lstat` fails only for a gap. -/
theorem walk_ways {fs : FS} (b : Nat) (cur : Path) (l : List Str) (ho : AllOrd l)
    (hw : ∀ p, p <+: cur ++ l → p ≠ cur ++ l → cur <+: p → fs.nodes p = none ∨ fs.nodes p = some .dir) {e : Err} (h : walk fs.nodes false b cur l = .bad e) : e = ENOENT := by
  induction l generalizing cur with
  | nil => rw [walk_nil] at h; cases h
  | cons c rest ih =>
    have hc := ho c (by simp)
    have hr : AllOrd rest := fun x hx => ho x (by simp [hx])
    have he : cur ++ c :: rest = cur ++ [c] ++ rest := by simp
    have hsub : rest ≠ [] → fs.nodes (cur ++ [c]) = none ∨ fs.nodes (cur ++ [c]) = some .dir := by
      intro hne
      refine hw _ (by rw [he]; exact List.prefix_append _ _) ?_ (List.prefix_append _ _)
      rw [he]
      intro hx
      exact hne (List.self_eq_append_right.1 hx)
    rw [walk_name hc.1 hc.2.1 hc.2.2.1] at h
    cases hn : fs.nodes (cur ++ [c]) with
    | none =>
      rw [hn] at h
      simp only at h
      split at h
      · cases h
      · cases h; rfl
    | some n =>
      rw [hn] at h
      by_cases hre : rest = []
      · subst hre
        cases n with
        | dir => simp only [walk_nil] at h; cases h
        | file i => simp at h
        | link t => simp at h
      · rcases hsub hre with e1 | e1
        · rw [e1] at hn; cases hn
        · rw [e1] at hn
          cases hn
          simp only at h
          refine ih (cur ++ [c]) hr ?_ h
          intro p hp hne hcp
          rw [← he] at hp hne
          exact hw p hp hne ((List.prefix_append _ _).trans hcp)

section
variable (hS : PlannedK S) {flt : Faults} {s : OS}
include hS

theorem Roomy.bad (h : Roomy S fs) {Q : Path} {k : Kind} (hQ : S Q k) {e : Err} (hb : fs.lstat Q = .bad e) : e = ENOENT :=
  walk_ways 40 [] Q (hS.ord Q k hQ) (fun p hp hne _ => h.above Q k p hQ hp hne) hb

theorem Roomy.mkdirAll' (h : Roomy S s.fs) {R L : Path} {k : Kind} (hL : S L k) (hR : R <+: L) (hk : (k = .dir ∧ ∀ t, s.fs.nodes L ≠ some (.link t)) ∨ R ≠ L) :
    Roomy S (s.mkdirAll flt R).2.fs ∧ s.tick ≤ (s.mkdirAll flt R).2.tick ∧
    (s.Calm flt → (R = L → s.fs.nodes L = none ∨ s.fs.nodes L = some .dir) → (s.mkdirAll flt R).1 = none ∧ (s.mkdirAll flt R).2.fs.nodes R = some .dir) ∧
    ∀ r, (s.mkdirAll flt R).2.fs.nodes r = s.fs.nodes r ∨ (r <+: R ∧ (s.mkdirAll flt R).2.fs.nodes r = some .dir) := by
  have ho : AllOrd R := fun x hx => hS.ord L k hL x (hR.subset hx)
  have hw : ∀ r t, r <+: R → s.fs.nodes r ≠ some (.link t) := by
    intro r t hr ht
    by_cases e : r = L
    · subst e
      have hRL : R = r := hR.eq_of_length_le hr.length_le
      rcases hk with hk | hk
      · exact hk.2 t ht
      · exact hk hRL
    · exact h.straight L k r t hL (hr.trans hR) e ht
  have hn := mkdirAllN_where flt ho R.length h.tree hw
  refine ⟨h.mkdirAll hS (h.toDiskOK.mkdirAll flt R R).1 hL hR (hk.imp And.left id) hn, OS.mkdirAll_tick _ _, ?_, hn⟩
  intro hc hx
  refine mkdirAll_calm flt ho h.tree hc ?_
  intro r hr
  by_cases e : r = L
  · subst e
    exact hx (hR.eq_of_length_le hr.length_le)
  · exact h.above L k r hL (hr.trans hR) e

theorem dropLast_ne {L : Path} {k : Kind} (hL : S L k) : L.dropLast ≠ L := by
  intro e
  have h1 := congrArg List.length e
  have h2 : L.length ≠ 0 := fun h => hS.deep L k hL (List.length_eq_zero_iff.1 h)
  rw [List.length_dropLast] at h1
  omega

theorem Roomy.removeAll (h : Roomy S s.fs) {Q : Path} {k : Kind} (hQ : S Q k) (hk : k ≠ .dir) :
    Roomy S (s.removeAll flt Q).2.fs ∧ s.tick ≤ (s.removeAll flt Q).2.tick ∧
    (s.Calm flt → (s.removeAll flt Q).1 = none ∧ (s.removeAll flt Q).2.fs.nodes Q = none) ∧
    ∀ r, r ≠ Q → r <+: Q → (s.removeAll flt Q).2.fs.nodes r = s.fs.nodes r := by
  obtain ⟨d1, d2, d3⟩ := h.toDiskOK.removeAll hS.toPlanned flt hQ hk
  have hn : ∀ p, (s.removeAll flt Q).2.fs.nodes p = s.fs.nodes p ∨ ((s.removeAll flt Q).2.fs.nodes p = none ∧ Q <+: p) := by
    intro p
    rcases OS.removeAll_cases flt Q s with ⟨e, _⟩ | ⟨q, n, rm, hf, _, _, e⟩ | ⟨q, n, hf, _, _, e⟩
    · exact Or.inl (by rw [e])
    · obtain ⟨rfl, _⟩ := h.found hS.toPlanned hQ hf
      rw [e]; exact cutSome_nodes _ _ _ _
    · obtain ⟨rfl, _⟩ := h.found hS.toPlanned hQ hf
      rw [e]; exact cut_nodes _ _ _
  refine ⟨h.shrunk d1 (fun p => (hn p).imp id And.left), OS.removeAll_tick _ _, ?_, ?_⟩
  · intro hc
    have h1 : (s.removeAll flt Q).1 = none := by
      unfold OS.removeAll
      cases hl : s.fs.lstat Q with
      | absent q => rfl
      | bad e => simp only; rw [if_pos (h.bad hS hQ hl)]
      | found q n =>
        obtain ⟨rfl, _⟩ := h.found hS.toPlanned hQ hl
        simp only [hc.now]
        rw [if_neg (hS.deep q k hQ)]
    exact ⟨h1, d3 h1⟩
  · intro r hne hr
    rcases hn r with e | ⟨_, e⟩
    · exact e
    · exact absurd (hr.eq_of_length_le e.length_le) hne

theorem Roomy.remove (h : Roomy S s.fs) {Q : Path} {k : Kind} (hQ : S Q k) :
    Roomy S (s.remove flt Q).2.fs ∧ s.tick ≤ (s.remove flt Q).2.tick ∧ ((s.remove flt Q).1 = none → (s.remove flt Q).2.fs.nodes Q = none) ∧
    (s.Calm flt → (∃ n, n ≠ Node.dir ∧ s.fs.nodes Q = some n) → (s.remove flt Q).1 = none) := by
  obtain ⟨d1, d2, d3⟩ := h.toDiskOK.remove hS.toPlanned flt hQ
  have hn : ∀ p, (s.remove flt Q).2.fs.nodes p = s.fs.nodes p ∨ (s.remove flt Q).2.fs.nodes p = none := by
    intro p
    rcases OS.remove_cases flt Q s with ⟨e, _, e2⟩ | ⟨q, n, hf, _, _, e⟩
    · exact Or.inl (by rw [e2])
    · rw [e]; exact (cut_nodes _ _ _).imp id And.left
  refine ⟨h.shrunk d1 hn, OS.remove_tick _ _, d3, ?_⟩
  rintro hc ⟨n, hnd, hq⟩
  unfold OS.remove
  rw [hc.now, lstat_node h.tree (hS.ord Q k hQ) hq]
  cases n with
  | dir => exact absurd rfl hnd
  | link t => rfl
  | file i => rfl

theorem Roomy.open_ (h : Roomy S s.fs) {Q : Path} (hQ : S Q .file) (hl : ∀ t, s.fs.nodes Q ≠ some (.link t)) (um m : Nat) :
    Roomy S (s.openCreate flt um Q m).2.fs ∧ s.tick ≤ (s.openCreate flt um Q m).2.tick ∧
    (s.Calm flt → s.fs.nodes Q.dropLast = some .dir → ∃ i, (s.openCreate flt um Q m).1 = .ok i) := by
  have hst : s.fs.stat Q = s.fs.lstat Q := FS.stat_eq (fun q t hf => hl t (h.found hS.toPlanned hQ hf).2)
  refine ⟨?_, OS.openCreate_tick _ _ _ _, ?_⟩
  · have d := (FSink.open_disk hS.toPlanned h.toDiskOK hQ hl flt um m).1
    rcases OS.openCreate_cases flt um Q m s with ⟨e, e1, e2⟩ | ⟨q, i, hf, e1, e2⟩ | ⟨q, ha, e1, e2⟩
    · exact h.same d (by rw [e2])
    · exact h.same d (by rw [e2])
    · rw [hst] at ha
      obtain rfl := h.absent hS.toPlanned hQ ha
      refine h.put hS.toPlanned d hQ (by simp) (by rw [e2]; simp [FS.create]) ?_
      intro p hp
      rw [e2]
      simp [FS.create, hp]
  · intro hc hd
    unfold OS.openCreate
    rw [hc.now, hst]
    rcases List.eq_nil_or_concat Q with rfl | ⟨D, c, rfl⟩
    · exact absurd rfl (hS.deep [] .file hQ)
    rw [List.concat_eq_append] at *
    have ho := hS.ord _ _ hQ
    rw [List.dropLast_concat] at hd
    rw [lstat_step h.tree (fun x hx => ho x (by simp [hx])) (ho c (by simp)) hd]
    cases hn : s.fs.nodes (D ++ [c]) with
    | none => exact ⟨_, rfl⟩
    | some n =>
      cases n with
      | dir => exact absurd hn (h.free _ hQ)
      | link t => exact absurd hn (hl t)
      | file i => exact ⟨i, rfl⟩

/-- `createFile`. -/
theorem Roomy.createFile {cfg : FCfg} {e : Entry} (h : Roomy S s.fs) {dst : Str} (hd : cfg.destPath e.path = .ok dst) {Q : Path}
    (hq : cleanComps dst = Q) (hQ : S Q .file) :
    Roomy S (FSink.createFile cfg e s).2.fs ∧ s.tick ≤ (FSink.createFile cfg e s).2.tick ∧
    (s.Calm cfg.flt → ∃ i, (FSink.createFile cfg e s).1 = .ok i) := by
  unfold FSink.createFile
  simp only [hd, FSink.names, hq]
  obtain ⟨m1, m2, m3, m4⟩ := h.mkdirAll' hS (flt := cfg.flt) hQ (List.dropLast_prefix Q) (Or.inr (dropLast_ne hS hQ))
  generalize s.mkdirAll cfg.flt Q.dropLast = m at *
  obtain ⟨me, M⟩ := m
  simp only at m1 m2 m3 m4 ⊢
  cases me with
  | some x => exact ⟨m1, m2, fun hc => by cases (m3 hc (fun e => absurd e (dropLast_ne hS hQ))).1⟩
  | none =>
    simp only
    have rest : ∀ (R : OS) (chm : Bool), Roomy S R.fs → s.tick ≤ R.tick → (∀ t, R.fs.nodes Q ≠ some (.link t)) → (s.Calm cfg.flt → R.fs.nodes Q.dropLast = some .dir) →
        ∀ X : Except Err Nat × OS, X = (match (R.openCreate cfg.flt cfg.umask Q (FSink.fileMode e)).1 with
          | .error x => (.error (.wrapped x), (R.openCreate cfg.flt cfg.umask Q (FSink.fileMode e)).2)
          | .ok i => if chm then (match ((R.openCreate cfg.flt cfg.umask Q (FSink.fileMode e)).2.chmod cfg.flt i (FSink.fileMode e)).1 with
              | some x => (.error (.wrapped x), ((R.openCreate cfg.flt cfg.umask Q (FSink.fileMode e)).2.chmod cfg.flt i (FSink.fileMode e)).2)
              | none => (.ok i, ((R.openCreate cfg.flt cfg.umask Q (FSink.fileMode e)).2.chmod cfg.flt i (FSink.fileMode e)).2))
            else (.ok i, (R.openCreate cfg.flt cfg.umask Q (FSink.fileMode e)).2)) →
        Roomy S X.2.fs ∧ s.tick ≤ X.2.tick ∧ (s.Calm cfg.flt → ∃ i, X.1 = .ok i) := by
      intro R chm r1 r2 r3 r4 X hX
      obtain ⟨o1, o2, o3⟩ := r1.open_ hS (flt := cfg.flt) hQ r3 cfg.umask (FSink.fileMode e)
      generalize R.openCreate cfg.flt cfg.umask Q (FSink.fileMode e) = o at *
      obtain ⟨oe, O⟩ := o
      simp only at o1 o2 o3 hX
      cases oe with
      | error x =>
        subst hX
        exact ⟨o1, Nat.le_trans r2 o2, fun hc => by obtain ⟨i, hi⟩ := o3 (hc.later r2) (r4 hc); cases hi⟩
      | ok i =>
        simp only at hX
        cases chm with
        | false =>
          simp only [Bool.false_eq_true, if_false] at hX
          subst hX
          exact ⟨o1, Nat.le_trans r2 o2, fun _ => ⟨i, rfl⟩⟩
        | true =>
          simp only [if_true] at hX
          have ct := OS.chmod_tick (flt := cfg.flt) i (FSink.fileMode e) O
          have cc : O.Calm cfg.flt → (O.chmod cfg.flt i (FSink.fileMode e)).1 = none := by
            intro hc; unfold OS.chmod; rw [hc.now]
          have cd : Roomy S (O.chmod cfg.flt i (FSink.fileMode e)).2.fs := by
            rcases FSink.chmod_cases cfg.flt i (FSink.fileMode e) O with ⟨x, c1, c2⟩ | ⟨c1, c2⟩
            · rw [c2]; exact o1
            · rw [c2]; exact o1.same (o1.toDiskOK.setMode i _).1 rfl
          generalize O.chmod cfg.flt i (FSink.fileMode e) = C at *
          obtain ⟨ce, C⟩ := C
          cases ce with
          | some x =>
            subst hX
            exact ⟨cd, Nat.le_trans r2 (Nat.le_trans o2 ct), fun hc => by cases cc (hc.later (Nat.le_trans r2 o2))⟩
          | none =>
            subst hX
            exact ⟨cd, Nat.le_trans r2 (Nat.le_trans o2 ct), fun hc => ⟨i, rfl⟩⟩
    have hpar : s.Calm cfg.flt → M.fs.nodes Q.dropLast = some .dir := fun hc => (m3 hc (fun e => absurd e (dropLast_ne hS hQ))).2
    cases hlst : M.fs.lstat Q with
    | absent q =>
      exact rest M false m1 m2 (by
        intro t ht
        rw [lstat_node m1.tree (hS.ord Q .file hQ) ht] at hlst; cases hlst) hpar _ rfl
    | bad x =>
      exact rest M false m1 m2 (by
        intro t ht
        rw [lstat_node m1.tree (hS.ord Q .file hQ) ht] at hlst; cases hlst) hpar _ rfl
    | found q n =>
      obtain ⟨rfl, hn⟩ := m1.found hS.toPlanned hQ hlst
      cases n with
      | dir => exact rest M true m1 m2 (by intro t ht; rw [hn] at ht; cases ht) hpar _ rfl
      | file i => exact rest M true m1 m2 (by intro t ht; rw [hn] at ht; cases ht) hpar _ rfl
      | link t =>
        simp only
        obtain ⟨r1, r2, r3, r4⟩ := m1.removeAll hS (flt := cfg.flt) hQ (by simp)
        have r5 := (m1.toDiskOK.removeAll hS.toPlanned cfg.flt hQ (by simp)).2.2
        generalize M.removeAll cfg.flt q = r at *
        obtain ⟨re, R⟩ := r
        simp only at r1 r2 r3 r4 r5 ⊢
        cases re with
        | some x => exact ⟨r1, Nat.le_trans m2 r2, fun hc => by cases (r3 (hc.later m2)).1⟩
        | none =>
          simp only
          exact rest R true r1 (Nat.le_trans m2 r2) (by intro t ht; rw [r5 rfl] at ht; cases ht)
            (fun hc => by rw [r4 _ (dropLast_ne hS hQ) (List.dropLast_prefix _)]; exact hpar hc) _ rfl

end
end
end Savior
