import Verif.FolderSink
/-!
# Path resolution: lemmas
-/

namespace Savior

/-- The tree is well-formed: the root is a directory, and everything else is in one. -/
def FS.Tree (fs : FS) : Prop := fs.nodes [] = some .dir ∧ ∀ p c, fs.nodes (p ++ [c]) ≠ none → fs.nodes p = some .dir

theorem walk_def (nodes : Path → Option Node) (follow : Bool) (b : Nat) (cur : Path) (cs : List Str) :
    walk nodes follow b cur cs = walkStep nodes follow (match b with | 0 => fun _ _ => .bad ELOOP | b + 1 => walk nodes follow b) cur cs := by
  cases b <;> rfl

/-- Generic induction over a resolution. -/
theorem walk_ind {nodes : Path → Option Node} {follow : Bool} {P : Nat → Path → List Str → WR → Prop}
    (nil : ∀ b cur, P b cur [] (.found cur .dir))
    (skip : ∀ b cur c rest r, (c = [] ∨ c = dot1) → P b cur rest r → P b cur (c :: rest) r)
    (up : ∀ b cur rest r, P b cur.dropLast rest r → P b cur (dot2 :: rest) r)
    (missing : ∀ b cur c, c ≠ [] → c ≠ dot1 → c ≠ dot2 → nodes (cur ++ [c]) = none → P b cur [c] (.absent (cur ++ [c])))
    (lost : ∀ b cur c rest, c ≠ [] → c ≠ dot1 → c ≠ dot2 → nodes (cur ++ [c]) = none → rest ≠ [] → P b cur (c :: rest) (.bad ENOENT))
    (down : ∀ b cur c rest r, c ≠ [] → c ≠ dot1 → c ≠ dot2 → nodes (cur ++ [c]) = some .dir → P b (cur ++ [c]) rest r → P b cur (c :: rest) r)
    (file : ∀ b cur c i, c ≠ [] → c ≠ dot1 → c ≠ dot2 → nodes (cur ++ [c]) = some (.file i) → P b cur [c] (.found (cur ++ [c]) (.file i)))
    (notdir : ∀ b cur c i rest, c ≠ [] → c ≠ dot1 → c ≠ dot2 → nodes (cur ++ [c]) = some (.file i) → rest ≠ [] → P b cur (c :: rest) (.bad ENOTDIR))
    (stop : ∀ b cur c t, c ≠ [] → c ≠ dot1 → c ≠ dot2 → nodes (cur ++ [c]) = some (.link t) → follow = false → P b cur [c] (.found (cur ++ [c]) (.link t)))
    (loop : ∀ cur c t rest, c ≠ [] → c ≠ dot1 → c ≠ dot2 → nodes (cur ++ [c]) = some (.link t) → ¬ (rest = [] ∧ follow = false) →
      P 0 cur (c :: rest) (.bad ELOOP))
    (link : ∀ b cur c t rest r, c ≠ [] → c ≠ dot1 → c ≠ dot2 → nodes (cur ++ [c]) = some (.link t) → ¬ (rest = [] ∧ follow = false) →
      P b (if isAbs t then [] else cur) (splitSlash t ++ rest) r → P (b + 1) cur (c :: rest) r)
    (b : Nat) (cur : Path) (l : List Str) : P b cur l (walk nodes follow b cur l) := by
  induction b generalizing cur l with
  | zero =>
    induction l generalizing cur with
    | nil => exact nil 0 cur
    | cons c rest ih =>
      rw [walk_def]
      unfold walkStep
      by_cases h1 : c = [] ∨ c = dot1
      · rw [if_pos h1]; have := ih cur; rw [walk_def] at this; exact skip 0 cur c rest _ h1 this
      · rw [if_neg h1]
        simp only [not_or] at h1
        by_cases h2 : c = dot2
        · rw [if_pos h2]; subst h2; have := ih cur.dropLast; rw [walk_def] at this; exact up 0 cur rest _ this
        · rw [if_neg h2]
          cases hn : nodes (cur ++ [c]) with
          | none =>
            simp only
            split
            · rename_i h; subst h; exact missing 0 cur c h1.1 h1.2 h2 hn
            · rename_i h; exact lost 0 cur c rest h1.1 h1.2 h2 hn h
          | some n =>
            cases n with
            | dir => simp only; have := ih (cur ++ [c]); rw [walk_def] at this; exact down 0 cur c rest _ h1.1 h1.2 h2 hn this
            | file i =>
              simp only
              split
              · rename_i h; subst h; exact file 0 cur c i h1.1 h1.2 h2 hn
              · rename_i h; exact notdir 0 cur c i rest h1.1 h1.2 h2 hn h
            | link t =>
              simp only
              split
              · rename_i h; rw [h.1]; exact stop 0 cur c t h1.1 h1.2 h2 hn h.2
              · rename_i h; exact loop cur c t rest h1.1 h1.2 h2 hn h
  | succ b ihb =>
    induction l generalizing cur with
    | nil => exact nil _ cur
    | cons c rest ih =>
      rw [walk_def]
      unfold walkStep
      by_cases h1 : c = [] ∨ c = dot1
      · rw [if_pos h1]; have := ih cur; rw [walk_def] at this; exact skip _ cur c rest _ h1 this
      · rw [if_neg h1]
        simp only [not_or] at h1
        by_cases h2 : c = dot2
        · rw [if_pos h2]; subst h2; have := ih cur.dropLast; rw [walk_def] at this; exact up _ cur rest _ this
        · rw [if_neg h2]
          cases hn : nodes (cur ++ [c]) with
          | none =>
            simp only
            split
            · rename_i h; subst h; exact missing _ cur c h1.1 h1.2 h2 hn
            · rename_i h; exact lost _ cur c rest h1.1 h1.2 h2 hn h
          | some n =>
            cases n with
            | dir => simp only; have := ih (cur ++ [c]); rw [walk_def] at this; exact down _ cur c rest _ h1.1 h1.2 h2 hn this
            | file i =>
              simp only
              split
              · rename_i h; subst h; exact file _ cur c i h1.1 h1.2 h2 hn
              · rename_i h; exact notdir _ cur c i rest h1.1 h1.2 h2 hn h
            | link t =>
              simp only
              split
              · rename_i h; rw [h.1]; exact stop _ cur c t h1.1 h1.2 h2 hn h.2
              · rename_i h; exact link b cur c t rest _ h1.1 h1.2 h2 hn h (ihb _ _)

/-! ### Computation rules -/

section
variable {nodes : Path → Option Node} {follow : Bool} {b : Nat} {cur : Path} {c : Str} {rest : List Str}

theorem walk_nil : walk nodes follow b cur [] = .found cur .dir := by rw [walk_def]; rfl

theorem walk_skip (h : c = [] ∨ c = dot1) : walk nodes follow b cur (c :: rest) = walk nodes follow b cur rest := by
  rw [walk_def, walkStep, if_pos h, ← walk_def]

theorem walk_up : walk nodes follow b cur (dot2 :: rest) = walk nodes follow b cur.dropLast rest := by
  rw [walk_def, walkStep, if_neg (by decide), if_pos rfl, ← walk_def]

theorem walk_name (h1 : c ≠ []) (h2 : c ≠ dot1) (h3 : c ≠ dot2) : walk nodes follow b cur (c :: rest) =
    match nodes (cur ++ [c]) with
      | none => if rest = [] then .absent (cur ++ [c]) else .bad ENOENT
      | some .dir => walk nodes follow b (cur ++ [c]) rest
      | some (.file i) => if rest = [] then .found (cur ++ [c]) (.file i) else .bad ENOTDIR
      | some (.link t) =>
        if rest = [] ∧ follow = false then .found (cur ++ [c]) (.link t)
        else match b with
          | 0 => .bad ELOOP
          | b + 1 => walk nodes follow b (if isAbs t then [] else cur) (splitSlash t ++ rest) := by
  rw [walk_def, walkStep, if_neg (by simp [h1, h2]), if_neg h3]
  cases hn : nodes (cur ++ [c]) with
  | none => rfl
  | some n =>
    cases n with
    | dir => simp only; rw [walk_def]
    | file i => rfl
    | link t => simp only; cases b <;> rfl
end

/-- Only a final link distinguishes `Lstat` from `Stat`. -/
theorem walk_follow {nodes : Path → Option Node} (b : Nat) (cur : Path) (l : List Str)
    (h : ∀ q t, walk nodes false b cur l ≠ .found q (.link t)) : walk nodes true b cur l = walk nodes false b cur l := by
  have key := walk_ind (nodes := nodes) (follow := false)
    (P := fun b cur l r => (∀ q t, r ≠ .found q (.link t)) → walk nodes true b cur l = r)
    (by intro b cur _; exact walk_nil)
    (by intro b cur c rest r h1 ih hr; rw [walk_skip h1]; exact ih hr)
    (by intro b cur rest r ih hr; rw [walk_up]; exact ih hr)
    (by intro b cur c h1 h2 h3 hn _; rw [walk_name h1 h2 h3, hn]; simp)
    (by intro b cur c rest h1 h2 h3 hn hr _; rw [walk_name h1 h2 h3, hn]; simp [hr])
    (by intro b cur c rest r h1 h2 h3 hn ih hr; rw [walk_name h1 h2 h3, hn]; exact ih hr)
    (by intro b cur c i h1 h2 h3 hn _; rw [walk_name h1 h2 h3, hn]; simp)
    (by intro b cur c i rest h1 h2 h3 hn hr _; rw [walk_name h1 h2 h3, hn]; simp [hr])
    (by intro b cur c t h1 h2 h3 hn _ hr; exact absurd rfl (hr _ _))
    (by intro cur c t rest h1 h2 h3 hn hr _; rw [walk_name h1 h2 h3, hn]; simp)
    (by intro b cur c t rest r h1 h2 h3 hn hr ih h; rw [walk_name h1 h2 h3, hn]; simp only [Bool.true_eq_false, and_false, if_false]; exact ih h)
    b cur l
  exact key h

/-- Looking up one more name, without following it. -/
theorem walk_snoc {nodes : Path → Option Node} {c : Str} (h1 : c ≠ []) (h2 : c ≠ dot1) (h3 : c ≠ dot2) (b : Nat) (cur : Path) (l : List Str) :
    walk nodes false b cur (l ++ [c]) = match walk nodes true b cur l with
      | .found r .dir => (match nodes (r ++ [c]) with | none => .absent (r ++ [c]) | some n => .found (r ++ [c]) n)
      | .found _ _ => .bad ENOTDIR
      | .absent _ => .bad ENOENT
      | .bad e => .bad e := by
  have key := walk_ind (nodes := nodes) (follow := true)
    (P := fun b cur l r => (∀ q t, r ≠ .found q (.link t)) ∧ walk nodes false b cur (l ++ [c]) = match r with
      | .found r .dir => (match nodes (r ++ [c]) with | none => .absent (r ++ [c]) | some n => .found (r ++ [c]) n)
      | .found _ _ => .bad ENOTDIR
      | .absent _ => .bad ENOENT
      | .bad e => .bad e)
    (by
      intro b cur
      refine ⟨by simp, ?_⟩
      simp only [List.nil_append]
      rw [walk_name h1 h2 h3]
      cases hn : nodes (cur ++ [c]) with
      | none => simp
      | some n => cases n <;> simp [walk_nil])
    (by intro b cur x rest r hx ih; rw [List.cons_append, walk_skip hx]; exact ih)
    (by intro b cur rest r ih; rw [List.cons_append, walk_up]; exact ih)
    (by intro b cur x a1 a2 a3 hn; refine ⟨by simp, ?_⟩; rw [List.cons_append, walk_name a1 a2 a3, hn]; simp)
    (by intro b cur x rest a1 a2 a3 hn hr; refine ⟨by simp, ?_⟩; rw [List.cons_append, walk_name a1 a2 a3, hn]; simp)
    (by intro b cur x rest r a1 a2 a3 hn ih; rw [List.cons_append, walk_name a1 a2 a3, hn]; exact ih)
    (by intro b cur x i a1 a2 a3 hn; refine ⟨by simp, ?_⟩; rw [List.cons_append, walk_name a1 a2 a3, hn]; simp)
    (by intro b cur x i rest a1 a2 a3 hn hr; refine ⟨by simp, ?_⟩; rw [List.cons_append, walk_name a1 a2 a3, hn]; simp)
    (by intro b cur x t a1 a2 a3 hn hf; cases hf)
    (by intro cur x t rest a1 a2 a3 hn hr; refine ⟨by simp, ?_⟩; rw [List.cons_append, walk_name a1 a2 a3, hn]; simp)
    (by
      intro b cur x t rest r a1 a2 a3 hn hr ih
      refine ⟨ih.1, ?_⟩
      rw [List.cons_append, walk_name a1 a2 a3, hn]
      simp only [List.append_eq_nil_iff, List.cons_ne_self, and_false, false_and, if_false]
      rw [← List.append_assoc]
      simpa using ih.2)
    b cur l
  exact key.2

/-- Adding nodes does not change what was found. -/
theorem walk_mono {nodes nodes' : Path → Option Node} (hm : ∀ p n, nodes p = some n → nodes' p = some n) {follow : Bool} (b : Nat) (cur : Path)
    (l : List Str) {q : Path} {n : Node} (h : walk nodes follow b cur l = .found q n) : walk nodes' follow b cur l = .found q n := by
  have key := walk_ind (nodes := nodes) (follow := follow)
    (P := fun b cur l r => ∀ q n, r = .found q n → walk nodes' follow b cur l = .found q n)
    (by intro b cur q n h; rw [walk_nil]; exact h)
    (by intro b cur c rest r hc ih q n h; rw [walk_skip hc]; exact ih q n h)
    (by intro b cur rest r ih q n h; rw [walk_up]; exact ih q n h)
    (by intro b cur c _ _ _ _ q n h; cases h)
    (by intro b cur c rest _ _ _ _ _ q n h; cases h)
    (by intro b cur c rest r h1 h2 h3 hn ih q n h; rw [walk_name h1 h2 h3, hm _ _ hn]; exact ih q n h)
    (by intro b cur c i h1 h2 h3 hn q n h; rw [walk_name h1 h2 h3, hm _ _ hn]; simpa using h)
    (by intro b cur c i rest _ _ _ _ _ q n h; cases h)
    (by intro b cur c t h1 h2 h3 hn hf q n h; rw [walk_name h1 h2 h3, hm _ _ hn]; simpa [hf] using h)
    (by intro cur c t rest _ _ _ _ _ q n h; cases h)
    (by intro b cur c t rest r h1 h2 h3 hn hr ih q n h; rw [walk_name h1 h2 h3, hm _ _ hn]; simp only [hr, if_false]; exact ih q n h)
    b cur l
  exact key q n h

/-- Adding the missing last node. -/
theorem walk_add {nodes nodes' : Path → Option Node} {q : Path} {n : Node} (hm : ∀ p n, nodes p = some n → nodes' p = some n) (hq : nodes' q = some n)
    {follow : Bool} (hn : follow = true → ∀ t, n ≠ .link t) (b : Nat) (cur : Path) (l : List Str) (h : walk nodes follow b cur l = .absent q) :
    walk nodes' follow b cur l = .found q n := by
  have key := walk_ind (nodes := nodes) (follow := follow)
    (P := fun b cur l r => r = .absent q → walk nodes' follow b cur l = .found q n)
    (by intro b cur h; cases h)
    (by intro b cur c rest r hc ih h; rw [walk_skip hc]; exact ih h)
    (by intro b cur rest r ih h; rw [walk_up]; exact ih h)
    (by
      intro b cur c h1 h2 h3 hx h
      cases h
      rw [walk_name h1 h2 h3, hq]
      cases n with
      | dir => simp [walk_nil]
      | file i => simp
      | link t =>
        cases hf : follow with
        | false => simp
        | true => exact absurd rfl (hn hf t))
    (by intro b cur c rest _ _ _ _ _ h; cases h)
    (by intro b cur c rest r h1 h2 h3 hx ih h; rw [walk_name h1 h2 h3, hm _ _ hx]; exact ih h)
    (by intro b cur c i h1 h2 h3 hx h; cases h)
    (by intro b cur c i rest _ _ _ _ _ h; cases h)
    (by intro b cur c t h1 h2 h3 hx hf h; cases h)
    (by intro cur c t rest _ _ _ _ _ h; cases h)
    (by intro b cur c t rest r h1 h2 h3 hx hr ih h; rw [walk_name h1 h2 h3, hm _ _ hx]; simp only [hr, if_false]; exact ih h)
    b cur l
  exact key h

theorem tree_dropLast {fs : FS} (ht : fs.Tree) {p : Path} (h : fs.nodes p = some .dir) : fs.nodes p.dropLast = some .dir := by
  rcases List.eq_nil_or_concat p with rfl | ⟨r, x, rfl⟩
  · exact h
  · rw [List.concat_eq_append] at h ⊢
    rw [List.dropLast_concat]
    exact ht.2 r x (by rw [h]; simp)


/-- What is found is there; where something is missing, its folder exists. -/
theorem walk_real {fs : FS} (ht : fs.Tree) {follow : Bool} (b : Nat) (cur : Path) (l : List Str) (hc : fs.nodes cur = some .dir) :
    (∀ q n, walk fs.nodes follow b cur l = .found q n → fs.nodes q = some n) ∧
    (∀ q, walk fs.nodes follow b cur l = .absent q → fs.nodes q = none ∧ ∃ r c, q = r ++ [c] ∧ fs.nodes r = some .dir) := by
  have key := walk_ind (nodes := fs.nodes) (follow := follow)
    (P := fun b cur l r => fs.nodes cur = some .dir → (∀ q n, r = .found q n → fs.nodes q = some n) ∧
      (∀ q, r = .absent q → fs.nodes q = none ∧ ∃ r c, q = r ++ [c] ∧ fs.nodes r = some .dir))
    (by intro b cur hc; exact ⟨by rintro q n ⟨⟩; exact hc, by rintro q ⟨⟩⟩)
    (by intro b cur c rest r _ ih hc; exact ih hc)
    (by intro b cur rest r ih hc; exact ih (tree_dropLast ht hc))
    (by intro b cur c _ _ _ hn hc; exact ⟨by rintro q n ⟨⟩, by rintro q ⟨⟩; exact ⟨hn, cur, c, rfl, hc⟩⟩)
    (by intro b cur c rest _ _ _ hn _ hc; exact ⟨by rintro q n ⟨⟩, by rintro q ⟨⟩⟩)
    (by intro b cur c rest r _ _ _ hn ih hc; exact ih hn)
    (by intro b cur c i _ _ _ hn hc; exact ⟨by rintro q n ⟨⟩; exact hn, by rintro q ⟨⟩⟩)
    (by intro b cur c i rest _ _ _ hn _ hc; exact ⟨by rintro q n ⟨⟩, by rintro q ⟨⟩⟩)
    (by intro b cur c t _ _ _ hn _ hc; exact ⟨by rintro q n ⟨⟩; exact hn, by rintro q ⟨⟩⟩)
    (by intro cur c t rest _ _ _ hn _ hc; exact ⟨by rintro q n ⟨⟩, by rintro q ⟨⟩⟩)
    (by intro b cur c t rest r _ _ _ hn _ ih hc; exact ih (by split; exact ht.1; exact hc))
    b cur l
  exact key hc

namespace FS

theorem stat_real {fs : FS} (ht : fs.Tree) {p q : Path} {n : Node} (h : fs.stat p = .found q n) : fs.nodes q = some n :=
  (walk_real ht 40 [] p ht.1).1 q n h

theorem lstat_real {fs : FS} (ht : fs.Tree) {p q : Path} {n : Node} (h : fs.lstat p = .found q n) : fs.nodes q = some n :=
  (walk_real ht 40 [] p ht.1).1 q n h

theorem lstat_absent {fs : FS} (ht : fs.Tree) {p q : Path} (h : fs.lstat p = .absent q) :
    fs.nodes q = none ∧ ∃ r c, q = r ++ [c] ∧ fs.nodes r = some .dir := (walk_real ht 40 [] p ht.1).2 q h

theorem stat_absent {fs : FS} (ht : fs.Tree) {p q : Path} (h : fs.stat p = .absent q) :
    fs.nodes q = none ∧ ∃ r c, q = r ++ [c] ∧ fs.nodes r = some .dir := (walk_real ht 40 [] p ht.1).2 q h

/-- Unless `Lstat` sees a link, `Stat` sees the same. -/
theorem stat_eq {fs : FS} {p : Path} (h : ∀ q t, fs.lstat p ≠ .found q (.link t)) : fs.stat p = fs.lstat p := walk_follow _ _ _ h

/-- `Stat` never ends at a link. -/
theorem stat_nolink {fs : FS} {p q : Path} {t : Str} : fs.stat p ≠ .found q (.link t) := by
  have key := walk_ind (nodes := fs.nodes) (follow := true) (P := fun b cur l r => r ≠ .found q (.link t))
    (by intros; simp) (by intros; assumption) (by intros; assumption) (by intros; simp) (by intros; simp) (by intros; assumption)
    (by intros; simp) (by intros; simp) (by intro _ _ _ _ _ _ _ _ h; cases h) (by intros; simp) (by intros; assumption) 40 [] p
  exact key

/-- `Lstat` in terms of the folder. -/
theorem lstat_snoc {fs : FS} {c : Str} (h : Ordinary c) (p : Path) : fs.lstat (p ++ [c]) = match fs.stat p with
      | .found r .dir => (match fs.nodes (r ++ [c]) with | none => .absent (r ++ [c]) | some n => .found (r ++ [c]) n)
      | .found _ _ => .bad ENOTDIR
      | .absent _ => .bad ENOENT
      | .bad e => .bad e := walk_snoc h.1 h.2.1 h.2.2.1 40 [] p

end FS

end Savior
