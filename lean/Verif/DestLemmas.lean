import Verif.Spec.Dest
/-!
# Lexical containment: lemmas
-/

namespace Savior

theorem lexWalk_eq {l : List Str} {cur : Path} (hc : AllOrd cur) (hl : ∀ c ∈ l, slash ∉ c) :
    lexWalk cur l = (l.foldl (cleanStep true) cur.reverse).reverse ∧ AllOrd (lexWalk cur l) := by
  induction l generalizing cur with
  | nil => exact ⟨by simp [lexWalk], hc⟩
  | cons c t ih =>
    have ht : ∀ c ∈ t, slash ∉ c := fun c hc => hl c (by simp [hc])
    have e : ∀ st, cleanStep true st c = if c = [] ∨ c = dot1 then st else if c = dot2 then
        (match st with | [] => [] | t :: r => if t = dot2 then c :: st else r) else c :: st := by
      intro st; cases st <;> simp [cleanStep]
    simp only [lexWalk, List.foldl_cons, e]
    by_cases h1 : c = [] ∨ c = dot1
    · rw [if_pos h1, if_pos h1]; exact ih hc ht
    · rw [if_neg h1, if_neg h1]
      by_cases h2 : c = dot2
      · rw [if_pos h2, if_pos h2]
        have hd : AllOrd cur.dropLast := fun x hx => hc x (List.dropLast_subset _ hx)
        have := ih hd ht
        rcases List.eq_nil_or_concat cur with rfl | ⟨r, x, rfl⟩
        · simpa using this
        · have hx := (hc x (by simp)).2.2.1
          simpa [hx] using this
      · rw [if_neg h2, if_neg h2]
        have ho : AllOrd (cur ++ [c]) := by
          intro x hx
          rcases List.mem_append.mp hx with hx | hx
          · exact hc x hx
          · simp only [List.mem_singleton] at hx
            subst hx
            simp only [not_or] at h1
            exact ⟨h1.1, h1.2, h2, hl _ (by simp)⟩
        have := ih ho ht
        simpa using this

theorem allOrd_nil : AllOrd [] := fun _ h => nomatch h

theorem lexWalk_append (cur : Path) (a b : List Str) : lexWalk cur (a ++ b) = lexWalk (lexWalk cur a) b := by
  induction a generalizing cur with
  | nil => rfl
  | cons c t ih =>
    simp only [List.cons_append, lexWalk]
    split
    · exact ih _
    · split <;> exact ih _

theorem lexWalk_ord {l : List Str} (h : AllOrd l) (cur : Path) : lexWalk cur l = cur ++ l := by
  induction l generalizing cur with
  | nil => simp [lexWalk]
  | cons c t ih =>
    have := h c (by simp)
    simp only [lexWalk, this.1, this.2.1, this.2.2.1, or_self, if_false]
    rw [ih (fun x hx => h x (by simp [hx]))]
    simp

theorem placeOf_eq {p : Str} (h : isAbs p = true) : placeOf p = cleanComps p := by
  unfold placeOf cleanComps
  rw [h]
  simpa using (lexWalk_eq (cur := []) allOrd_nil (splitSlash_noslash p)).1

theorem placeOf_ord (p : Str) : AllOrd (placeOf p) := (lexWalk_eq allOrd_nil (splitSlash_noslash p)).2

theorem base_ord {cfg : FCfg} {B : Path} (h : cfg.Base B) : AllOrd B := by
  cases h with
  | rooted _ => exact placeOf_ord _
  | relative _ _ _ => exact (lexWalk_eq (placeOf_ord _) (splitSlash_noslash _)).2

theorem base_abs {cfg : FCfg} {B : Path} (h : cfg.Base B) : absPath cfg.cwd cfg.dir = .ok (pathText B) := by
  cases h with
  | rooted h => simp [absPath, h, clean_abs h, placeOf_eq h, pathText]
  | relative h hw ha =>
    simp only [absPath, h, hw]
    unfold joinPath
    rename_i w
    have e : isAbs (w ++ slash :: cfg.dir) = true := by
      cases w with
      | nil => simp [isAbs]
      | cons c t => simpa [isAbs] using ha
    simp only [Bool.false_eq_true, if_false, clean_abs e, pathText, ← placeOf_eq e]
    rw [placeOf, splitSlash_append, lexWalk_append]
    rfl

theorem base_unique {cfg : FCfg} {B B' : Path} (h : cfg.Base B) (h' : cfg.Base B') : B = B' := by
  have := (base_abs h).symm.trans (base_abs h')
  exact rooted_inj (base_ord h) (base_ord h') (by simpa [pathText] using this)

/-- Joining a rooted clean path with another, made absolute. -/
theorem abs_join {B : Path} (hB : AllOrd B) (cwd : Except Err Str) (p : Str) :
    absPath cwd (joinPath (pathText B) p) = .ok (pathText (lexWalk B (splitSlash p))) := by
  have h := lexWalk_eq (cur := B) hB (splitSlash_noslash p)
  unfold pathText
  rw [joinPath_rooted hB, ← h.1]
  unfold absPath
  rw [isAbs_slash, clean_rooted h.2]
  rfl

theorem within_iff {B J : Path} (hB : AllOrd B) (hJ : AllOrd J) :
    within (pathText B) (pathText J) = true ↔ B <+: J ∧ (B ≠ [] ∨ J = []) := by
  unfold within
  simp only [Bool.or_eq_true, decide_eq_true_eq]
  unfold pathText
  rw [hasPrefix_iff hB hJ]
  constructor
  · rintro (⟨h0, C, hC, rfl⟩ | h)
    · exact ⟨⟨C, rfl⟩, Or.inl h0⟩
    · have := rooted_inj hJ hB h
      subst this
      exact ⟨List.prefix_refl _, by by_cases h : J = [] <;> simp [h]⟩
  · rintro ⟨⟨C, rfl⟩, h0⟩
    by_cases hC : C = []
    · right; simp [hC]
    · rcases h0 with h0 | h0
      · left; exact ⟨h0, C, hC, rfl⟩
      · simp at h0; exact absurd h0.2 hC

theorem destPath_eq {cfg : FCfg} {B : Path} (h : cfg.Base B) (p : Str) :
    cfg.destPath p = if B <+: lexWalk B (splitSlash p) ∧ (B ≠ [] ∨ lexWalk B (splitSlash p) = []) then
      .ok (pathText (lexWalk B (splitSlash p))) else .error .traversal := by
  have hB := base_ord h
  have hJ := (lexWalk_eq (cur := B) hB (splitSlash_noslash p)).2
  unfold FCfg.destPath
  rw [base_abs h]
  simp only [abs_join hB]
  have := within_iff hB hJ
  by_cases hw : within (pathText B) (pathText (lexWalk B (splitSlash p))) = true
  · rw [if_pos hw, if_pos (this.mp hw)]
  · rw [if_neg hw, if_neg (fun x => hw (this.mpr x))]

theorem cleanComps_text {J : Path} (h : AllOrd J) : cleanComps (pathText J) = J := cleanComps_rooted h

/-- An accepted path: where it is. -/
theorem destPath_ok {cfg : FCfg} {B : Path} (h : cfg.Base B) {p dst : Str} (hd : cfg.destPath p = .ok dst) :
    ∃ N, AllOrd N ∧ dst = pathText (B ++ N) ∧ cleanComps dst = B ++ N ∧ lexWalk B (splitSlash p) = B ++ N := by
  rw [destPath_eq h] at hd
  split at hd
  · rename_i hc
    obtain ⟨⟨N, hN⟩, _⟩ := hc
    have hJ := (lexWalk_eq (cur := B) (base_ord h) (splitSlash_noslash p)).2
    rw [← hN] at hJ hd
    simp only [Except.ok.injEq] at hd
    exact ⟨N, fun x hx => hJ x (by simp [hx]), hd.symm, by rw [← hd]; exact cleanComps_text hJ, hN.symm⟩
  · cases hd

/-- A path that never climbs above its start stays below any folder. -/
theorem lexWalk_inside {l : List Str} {d d' : Nat} (B N : Path) (hd : d = N.length) (h : depth l d = some d') :
    ∃ N', lexWalk (B ++ N) l = B ++ N' := by
  induction l generalizing d N with
  | nil => exact ⟨N, rfl⟩
  | cons c t ih =>
    simp only [depth] at h
    simp only [lexWalk]
    by_cases h1 : c = [] ∨ c = dot1
    · rw [if_pos h1] at h; rw [if_pos h1]; exact ih N hd h
    · rw [if_neg h1] at h; rw [if_neg h1]
      by_cases h2 : c = dot2
      · rw [if_pos h2] at h; rw [if_pos h2]
        rcases List.eq_nil_or_concat N with rfl | ⟨r, x, rfl⟩
        · subst hd; simp at h
        · subst hd
          have : (B ++ r.concat x).dropLast = B ++ r := by simp [← List.append_assoc]
          rw [this]
          exact ih r rfl (by simpa using h)
      · rw [if_neg h2] at h; rw [if_neg h2]
        rw [List.append_assoc]
        exact ih _ (by simp [hd]) h

end Savior
