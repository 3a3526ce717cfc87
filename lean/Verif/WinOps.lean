import Verif.WinLemmas
import Verif.ContainOps
import Verif.FolderLaw
/-!
# FolderSink on Windows: where entries go, and what the operations do to the filesystem
-/

namespace Savior

theorem winVol_from {V : Str} (h : WinVol V) : fromSlash V = V := by
  cases h with
  | drive c hc =>
    refine fromSlash_id ?_
    simp only [List.mem_cons, List.not_mem_nil, or_false, not_or]
    exact ⟨by rintro rfl; revert hc; decide, by decide⟩
  | share server share hs hq h0 h1 h2 =>
    refine fromSlash_id ?_
    simp only [List.cons_append, List.mem_cons, List.mem_append, not_or]
    exact ⟨by decide, by decide, hs.1.2.2.2, by decide, h1⟩

theorem names_text {w : WCfg} {V : Str} (hV : WinVol V) {J : Path} (hJ : AllWin J) : w.names (winText V J) = w.place V J := by
  unfold WCfg.names WCfg.place winText
  have hv := volLen_vol (V := V) (by rw [winVol_from hV]; exact hV) (R := bslash :: fromSlash (joinSlash J)) (Or.inr ⟨_, _, rfl, by decide⟩)
  rw [hv, List.take_left, List.drop_left, toSlash_sep (by decide), toSlash_from (join_noback hJ), cleanComps_rooted hJ.ord]

theorem names_vol {w : WCfg} {V : Str} (hV : WinVol V) (hd : ∀ c, V ≠ [c, colon]) : w.names V = w.place V [] := by
  unfold WCfg.names WCfg.place
  have hv := volLen_vol (V := V) (by rw [winVol_from hV]; exact hV) (R := []) (Or.inl ⟨rfl, by rw [winVol_from hV]; exact hd⟩)
  rw [List.append_nil] at hv
  rw [hv, List.take_length, List.drop_length]
  rfl

theorem allWin_append {a b : Path} (ha : AllWin a) (hb : AllWin b) : AllWin (a ++ b) := by
  intro c hc
  rcases List.mem_append.mp hc with h | h
  · exact ha c h
  · exact hb c h

/-- Where an accepted entry goes. -/
theorem destW_ok {w : WCfg} {V : Str} {B : Path} (hB : w.Base V B) (hq : w.Qualifies) {p dst : Str} (h : w.destPath p = .ok dst) :
    ∃ N, AllWin N ∧ w.names dst = w.place V (B ++ N) ∧ (dst = winText V (B ++ N) ∨ (dst = V ∧ B = [] ∧ N = [])) := by
  obtain ⟨hV, hW, hb⟩ := winBase_abs hB
  have pre : ∀ {x y : Str}, withinW x y = true → (∃ q, y = x ++ bslash :: q) ∨ y = x := by
    intro x y hh
    simp only [withinW, Bool.or_eq_true, decide_eq_true_eq] at hh
    rcases hh with hh | hh
    · unfold hasPrefix at hh
      rw [List.isPrefixOf_iff_prefix] at hh
      obtain ⟨q, hq⟩ := hh
      exact Or.inl ⟨q, by rw [← hq]; simp⟩
    · exact Or.inr hh
  have abs : ∀ {x y : Str}, w.abs x = .ok y → ∃ z, 2 ≤ volLen z ∧ y = cleanWin z := by
    intro x y hx
    unfold WCfg.abs at hx
    generalize hz : w.full (if x = [] then dot1 else x) = r at hx
    cases r with
    | error e => cases hx
    | ok z =>
      simp only [Except.ok.injEq] at hx
      exact ⟨z, hq _ _ hz, hx.symm⟩
  unfold WCfg.destPath at h
  rcases hb with hb | ⟨hb, rfl, hd⟩
  · rw [hb] at h
    simp only at h
    generalize hj : w.abs (joinWin (winText V B) (fromSlash p)) = r at h
    cases r with
    | error e => cases h
    | ok a =>
      simp only at h
      split at h
      · rename_i hw
        simp only [Except.ok.injEq] at h
        subst h
        rcases pre hw with ⟨q, rfl⟩ | rfl
        · obtain ⟨z, hz, e⟩ := abs hj
          have e' : cleanWin z = V ++ bslash :: (fromSlash (joinSlash B) ++ bslash :: q) := by rw [← e]; simp [winText]
          obtain ⟨J, hJ, eJ⟩ := cleanWin_inv hV hz e'
          have ej : joinSlash J = joinSlash B ++ slash :: toSlash q := by
            have := congrArg toSlash eJ
            rw [toSlash_from (join_noback hJ), toSlash_append, toSlash_from (join_noback hW), toSlash_sep (by decide)] at this
            exact this.symm
          have hp : hasPrefix (slash :: joinSlash J) ((slash :: joinSlash B) ++ [slash]) = true := by
            unfold hasPrefix
            rw [List.isPrefixOf_iff_prefix]
            exact ⟨toSlash q, by rw [ej]; simp⟩
          obtain ⟨_, C, _, rfl⟩ := (hasPrefix_iff hW.ord hJ.ord).mp hp
          have hC : AllWin C := fun c hc => hJ c (by simp [hc])
          have et : winText V B ++ bslash :: q = winText V (B ++ C) := by
            unfold winText
            rw [← eJ]; simp
          exact ⟨C, hC, by rw [et, names_text hV hJ], Or.inl et⟩
        · exact ⟨[], allWin_nil, by rw [List.append_nil, names_text hV hW], Or.inl (by rw [List.append_nil])⟩
      · cases h
  · rw [hb] at h
    simp only at h
    generalize hj : w.abs (joinWin V (fromSlash p)) = r at h
    cases r with
    | error e => cases h
    | ok a =>
      simp only at h
      split at h
      · rename_i hw
        simp only [Except.ok.injEq] at h
        subst h
        rcases pre hw with ⟨q, rfl⟩ | rfl
        · obtain ⟨z, hz, e⟩ := abs hj
          obtain ⟨J, hJ, rfl⟩ := cleanWin_inv hV hz e.symm
          exact ⟨J, hJ, names_text hV hJ, Or.inl rfl⟩
        · exact ⟨[], allWin_nil, names_vol hV hd, Or.inr ⟨rfl, rfl, rfl⟩⟩
      · cases h

theorem lexWalk_dropSeps (p : Str) (B : Path) : lexWalk B (splitSlash (toSlash (p.dropWhile winSep))) = lexWalk B (splitSlash (toSlash p)) := by
  induction p with
  | nil => rfl
  | cons c t ih =>
    cases hc : winSep c with
    | false => rw [List.dropWhile_cons_of_neg (by simp [hc])]
    | true => rw [List.dropWhile_cons_of_pos hc, ih, toSlash_sep hc, splitSlash_slash]; simp [lexWalk]

theorem toSlash_fromSlash (p : Str) : toSlash (fromSlash p) = toSlash p := by
  simp only [toSlash, fromSlash, List.map_map]
  apply List.map_congr_left
  intro c _
  simp only [Function.comp]
  by_cases h : c = slash
  · subst h; rfl
  · simp [h]

/-- If the kernel takes the cleaned path for itself: accepted iff it does not climb out of the folder, and where it goes. -/
theorem destW_eq {w : WCfg} {V : Str} {B : Path} (hB : w.Base V B) (hne : B ≠ []) (hl : B.getLast?.bind List.getLast? ≠ some colon) (p : Str)
    (hf : w.full (winText V (lexWalk B (splitSlash (toSlash p)))) = .ok (winText V (lexWalk B (splitSlash (toSlash p))))) :
    w.destPath p = if B <+: lexWalk B (splitSlash (toSlash p)) then .ok (winText V (lexWalk B (splitSlash (toSlash p)))) else .error .traversal := by
  obtain ⟨hV, hW, hb⟩ := winBase_abs hB
  have hb : w.abs w.dir = .ok (winText V B) := by
    rcases hb with hb | ⟨_, h, _⟩
    · exact hb
    · exact absurd h hne
  have hJ := walk_allWin hW p
  have hV' : WinVol (fromSlash V) := by rw [winVol_from hV]; exact hV
  -- the last byte
  have last : ∃ c, (winText V B).getLast? = some c ∧ winSep c = false ∧ c ≠ colon := by
    rcases List.eq_nil_or_concat B with rfl | ⟨D, x, rfl⟩
    · exact absurd rfl hne
    rw [List.concat_eq_append] at hl hW ⊢
    have hx := hW x (by simp)
    rcases List.eq_nil_or_concat x with rfl | ⟨x', c, rfl⟩
    · exact absurd rfl hx.1.1
    rw [List.concat_eq_append] at hl hx ⊢
    have hj : ∃ z, joinSlash (D ++ [x' ++ [c]]) = z ++ [c] := by
      by_cases hD : D = []
      · subst hD; exact ⟨x', rfl⟩
      · rw [join_append hD (by simp)]
        exact ⟨joinSlash D ++ slash :: x', by simp [joinSlash]⟩
    obtain ⟨z, hz⟩ := hj
    have hcs : c ≠ slash := by rintro rfl; exact hx.1.2.2.2 (by simp)
    have hcb : c ≠ bslash := by rintro rfl; exact hx.2 (by simp)
    refine ⟨c, ?_, ?_, ?_⟩
    · unfold winText
      rw [hz, fromSlash_append, show fromSlash [c] = [c] by simp [fromSlash, hcs], ← List.cons_append, ← List.append_assoc, List.getLast?_append]
      simp
    · simp [winSep, hcs, hcb]
    · rintro rfl
      apply hl
      simp
  obtain ⟨c, lc, lsep, lcol⟩ := last
  have hjoin : joinWin (winText V B) (fromSlash p) = winText V (lexWalk B (splitSlash (toSlash p))) := by
    unfold joinWin
    rw [lc]
    simp only [Option.getD_some, lsep, Bool.false_eq_true, if_false, lcol]
    have : winText V B ++ bslash :: fromSlash p = V ++ bslash :: (fromSlash (joinSlash B) ++ bslash :: fromSlash p) := by simp [winText]
    rw [this, cleanWin_rooted hV' (by decide), winVol_from hV, toSlash_append, toSlash_from (join_noback hW), toSlash_sep (by decide),
      splitSlash_append, lexWalk_append, splitSlash_join hne (allOrd_noslash hW.ord), lexWalk_ord hW.ord, toSlash_fromSlash]
    rfl
  have hclean : cleanWin (winText V (lexWalk B (splitSlash (toSlash p)))) = winText V (lexWalk B (splitSlash (toSlash p))) := by
    generalize lexWalk B (splitSlash (toSlash p)) = J at hJ
    conv => lhs; unfold winText
    rw [cleanWin_rooted hV' (by decide), winVol_from hV, toSlash_from (join_noback hJ)]
    by_cases h0 : J = []
    · subst h0; rfl
    · rw [splitSlash_join h0 (allOrd_noslash hJ.ord), lexWalk_ord hJ.ord]; rfl
  have habs : w.abs (winText V (lexWalk B (splitSlash (toSlash p)))) = .ok (winText V (lexWalk B (splitSlash (toSlash p)))) := by
    unfold WCfg.abs
    rw [if_neg (by simp [winText]), hf]
    simp only [hclean]
  unfold WCfg.destPath
  rw [hb]
  simp only [hjoin, habs]
  generalize lexWalk B (splitSlash (toSlash p)) = J at hJ
  have key : withinW (winText V B) (winText V J) = true ↔ B <+: J := by
    simp only [withinW, Bool.or_eq_true, decide_eq_true_eq]
    have inj : ∀ {a b : Path}, AllWin a → AllWin b → fromSlash (joinSlash a) = fromSlash (joinSlash b) → a = b := by
      intro a b ha hb h
      have := congrArg toSlash h
      rw [toSlash_from (join_noback ha), toSlash_from (join_noback hb)] at this
      exact rooted_inj ha.ord hb.ord (by rw [this])
    constructor
    · rintro (h | h)
      · unfold hasPrefix at h
        rw [List.isPrefixOf_iff_prefix] at h
        obtain ⟨q, hq⟩ := h
        have e : fromSlash (joinSlash B) ++ bslash :: q = fromSlash (joinSlash J) := by simpa [winText] using hq
        have ej := congrArg toSlash e
        rw [toSlash_from (join_noback hJ), toSlash_append, toSlash_from (join_noback hW), toSlash_sep (by decide)] at ej
        have hp : hasPrefix (slash :: joinSlash J) ((slash :: joinSlash B) ++ [slash]) = true := by
          unfold hasPrefix
          rw [List.isPrefixOf_iff_prefix]
          exact ⟨toSlash q, by rw [← ej]; simp⟩
        obtain ⟨_, C, _, rfl⟩ := (hasPrefix_iff hW.ord hJ.ord).mp hp
        exact List.prefix_append _ _
      · have e : fromSlash (joinSlash J) = fromSlash (joinSlash B) := by simpa [winText] using h
        rw [inj hJ hW e]; exact List.prefix_rfl
    · rintro ⟨C, rfl⟩
      by_cases h0 : C = []
      · right; subst h0; simp
      · left
        unfold hasPrefix
        rw [List.isPrefixOf_iff_prefix]
        refine ⟨fromSlash (joinSlash C), ?_⟩
        unfold winText
        rw [join_append hne h0, fromSlash_append, fromSlash_sep (by decide)]
        simp
  by_cases h : B <+: J
  · rw [if_pos (key.mpr h), if_pos h]
  · rw [if_neg h, if_neg (fun hh => h (key.mp hh))]

theorem place_append (w : WCfg) (V : Str) (B N : Path) : w.place V (B ++ N) = w.place V B ++ N.map w.fold := by simp [WCfg.place]

theorem place_ordW {w : WCfg} (hf : w.FoldOK) {V : Str} (hV : WinVol V) {J : Path} (hJ : AllWin J) : AllOrd (w.place V J) := by
  intro x hx
  unfold WCfg.place at hx
  rw [List.map_cons] at hx
  rcases List.mem_cons.mp hx with rfl | hx
  · exact hf.2 V hV
  · obtain ⟨n, hn, rfl⟩ := List.mem_map.mp hx
    exact hf.1 n (hJ n hn)

/-- The destination in the filesystem. -/
theorem destW_place {w : WCfg} {V : Str} {B : Path} (hB : w.Base V B) (hq : w.Qualifies) (hf : w.FoldOK) {p dst : Str} (h : w.destPath p = .ok dst) :
    ∃ N, AllOrd (w.place V B ++ N) ∧ w.names dst = w.place V B ++ N := by
  obtain ⟨N, hN, e, _⟩ := destW_ok hB hq h
  refine ⟨N.map w.fold, ?_, by rw [e, place_append]⟩
  rw [← place_append]
  exact place_ordW hf (winBase_abs hB).1 (allWin_append (winBase_abs hB).2.1 hN)

end Savior
