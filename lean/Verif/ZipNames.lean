import Verif.DestLemmas
/-!
# Opening a zip: names (zipextractor.go:39-98)
-/

namespace Savior

def backslash : Byte := 92

/-- `strings.ReplaceAll(name, "\\", "/")` (zipextractor.go:91). -/
def unbackslash (n : Str) : Str := n.map fun c => if c = backslash then slash else c

/-- The check made by `zip.NewReader` (external package arkive/zip, which, as the comments at zipextractor.go:40-44 and 55
say, reports `ErrInsecurePath` but still returns a reader): every non-empty name is local and has no backslash. -/
def zipNameSecure (n : Str) : Bool := n = [] || (isLocal n && !n.contains backslash)

/-- `normalizeBackslashNames` (zipextractor.go:86-98). -/
def normalizeNames : List Str → Except Err (List Str)
  | [] => .ok []
  | n :: t =>
    if n = [] then (normalizeNames t).map (n :: ·)
    else if isLocal (unbackslash n) then (normalizeNames t).map (unbackslash n :: ·)
    else .error .insecurePath

/-- `NewWithParams` (zipextractor.go:52-62), as far as names are concerned: the names of the members of the extractor, given
those in the archive. -/
def zipOpenNames (normalizeBackslashes : Bool) (names : List Str) : Except Err (List Str) :=
  if names.all zipNameSecure then .ok names
  else if normalizeBackslashes then
    match normalizeNames names with
    | .ok l => .ok l
    | .error e => .error (.wrapped e)
  else .error (.wrapped .insecurePath)

/-! ## Lemmas -/

theorem cleanStep_dots {r : Bool} {st : List Str} {c : Str} (h : st.getLast? = some dot2) :
    (cleanStep r st c).getLast? = some dot2 := by
  unfold cleanStep
  split
  · exact h
  · split
    · split
      · simp at h
      · split
        · rw [List.getLast?_cons, h]; rfl
        · rename_i t r' ht
          cases r' with
          | nil => simp at h; exact absurd h ht
          | cons y z => simpa [List.getLast?_cons] using h
    · rw [List.getLast?_cons, h]; rfl

theorem foldl_dots {r : Bool} {l : List Str} {st : List Str} (h : st.getLast? = some dot2) : (l.foldl (cleanStep r) st).getLast? = some dot2 := by
  induction l generalizing st with
  | nil => exact h
  | cons c t ih => exact ih (cleanStep_dots h)

theorem foldl_climb {l : List Str} {st : List Str} {d : Nat} (hs : d = st.length) (hst : ∀ x ∈ st, x ≠ dot2) (h : depth l d = none) :
    (l.foldl (cleanStep false) st).getLast? = some dot2 := by
  induction l generalizing st d with
  | nil => simp [depth] at h
  | cons c t ih =>
    simp only [depth] at h
    simp only [List.foldl_cons]
    by_cases h1 : c = [] ∨ c = dot1
    · rw [if_pos h1] at h
      have e : cleanStep false st c = st := by simp only [cleanStep, h1, if_true]
      rw [e]; exact ih hs hst h
    · rw [if_neg h1] at h
      by_cases h2 : c = dot2
      · rw [if_pos h2] at h
        cases st with
        | nil =>
          have e : cleanStep false [] c = [c] := by unfold cleanStep; rw [if_neg h1, if_pos h2]; rfl
          rw [e, h2]; exact foldl_dots rfl
        | cons x r =>
          subst hs
          have e : cleanStep false (x :: r) c = r := by
            unfold cleanStep; rw [if_neg h1, if_pos h2]; simp [hst x (by simp)]
          rw [e]; exact ih rfl (fun y hy => hst y (by simp [hy])) (by simpa using h)
      · rw [if_neg h2] at h
        have e : cleanStep false st c = c :: st := by unfold cleanStep; rw [if_neg h1, if_neg h2]
        rw [e]
        refine ih (by simp [hs]) ?_ h
        intro y hy
        rcases List.mem_cons.mp hy with rfl | hy
        · exact h2
        · exact hst y hy

theorem depth_nodots {l : List Str} (h : ∀ c ∈ l, c ≠ dot2) (d : Nat) : depth l d ≠ none := by
  induction l generalizing d with
  | nil => simp [depth]
  | cons c t ih =>
    have := h c (by simp)
    have ht : ∀ c ∈ t, c ≠ dot2 := fun c hc => h c (by simp [hc])
    simp only [depth]
    split
    · exact ih ht d
    · exact ih ht (d + 1)

theorem join_head (c : Str) (t : List Str) : joinSlash (c :: t) = c ∨ (c ++ [slash]) <+: joinSlash (c :: t) := by
  cases t with
  | nil => left; rfl
  | cons b r => right; exact ⟨joinSlash (b :: r), by simp [joinSlash]⟩

theorem isLocal_spec {p : Str} (h : isLocal p = true) : isAbs p = false ∧ p ≠ [] ∧ StaysInside p := by
  unfold isLocal at h
  split at h
  · cases h
  · rename_i h0
    simp only [not_or, Bool.not_eq_true] at h0
    refine ⟨h0.1, h0.2, ?_⟩
    unfold StaysInside
    by_cases hd : (splitSlash p).any (fun c => c = dot1 ∨ c = dot2) = true
    · simp only [hd, if_true] at h
      intro hn
      have hl := foldl_climb (st := []) (d := 0) rfl (by simp) hn
      have hc : (cleanComps p).head? = some dot2 := by
        unfold cleanComps
        rw [h0.1, List.head?_reverse]
        exact hl
      cases he : cleanComps p with
      | nil => simp [he] at hc
      | cons a t =>
        simp only [he, List.head?_cons, Option.some.injEq] at hc
        subst hc
        have hcl : clean p = joinSlash (dot2 :: t) := by
          unfold clean; simp [h0.1, he]
        rw [hcl] at h
        rcases join_head dot2 t with e | e
        · rw [e] at h; simp at h
        · simp [hasPrefix] at h
          exact h.2 e
    · simp only [List.any_eq_true, decide_eq_true_eq, not_exists, not_and, not_or] at hd
      exact depth_nodots (fun c hc => (hd c hc).2) 0

theorem unbackslash_none (n : Str) : backslash ∉ unbackslash n := by
  unfold unbackslash
  simp only [List.mem_map, not_exists, not_and]
  intro c _
  split
  · decide
  · assumption

theorem unbackslash_id {n : Str} (h : backslash ∉ n) : unbackslash n = n := by
  unfold unbackslash
  induction n with
  | nil => rfl
  | cons c t ih =>
    simp only [List.mem_cons, not_or] at h
    rw [List.map_cons, ih h.2, if_neg (fun e => h.1 e.symm)]

theorem normalizeNames_spec {l l' : List Str} (h : normalizeNames l = .ok l') :
    l' = l.map unbackslash ∧ ∀ n ∈ l', n = [] ∨ isLocal n = true := by
  induction l generalizing l' with
  | nil => simp [normalizeNames] at h; subst h; simp
  | cons n t ih =>
    simp only [normalizeNames] at h
    split at h
    · rename_i hn
      cases ht : normalizeNames t with
      | error e => rw [ht] at h; cases h
      | ok t' =>
        rw [ht] at h
        simp only [Except.map, Except.ok.injEq] at h
        obtain ⟨a, b⟩ := ih ht
        subst h
        subst hn
        exact ⟨by simp [a, unbackslash], by intro x hx; rcases List.mem_cons.mp hx with rfl | hx; exact Or.inl rfl; exact b x hx⟩
    · split at h
      · rename_i hl
        cases ht : normalizeNames t with
        | error e => rw [ht] at h; cases h
        | ok t' =>
          rw [ht] at h
          simp only [Except.map, Except.ok.injEq] at h
          obtain ⟨a, b⟩ := ih ht
          subst h
          exact ⟨by simp [a], by intro x hx; rcases List.mem_cons.mp hx with rfl | hx; exact Or.inr hl; exact b x hx⟩
      · cases h

theorem zipOpenNames_spec {norm : Bool} {l l' : List Str} (h : zipOpenNames norm l = .ok l') :
    l' = l.map unbackslash ∧ ∀ n ∈ l', backslash ∉ n ∧ (n = [] ∨ isLocal n = true) := by
  unfold zipOpenNames at h
  split at h
  · rename_i hs
    simp only [Except.ok.injEq] at h
    subst h
    rw [List.all_eq_true] at hs
    have hb : ∀ n ∈ l, backslash ∉ n ∧ (n = [] ∨ isLocal n = true) := by
      intro n hn
      have := hs n hn
      simp only [zipNameSecure, Bool.or_eq_true, decide_eq_true_eq, Bool.and_eq_true, Bool.not_eq_true', List.contains_eq_mem, decide_eq_false_iff_not] at this
      rcases this with rfl | ⟨a, b⟩
      · simp
      · exact ⟨b, Or.inr a⟩
    refine ⟨?_, hb⟩
    have : l.map unbackslash = l.map id := List.map_congr_left fun n hn => unbackslash_id (hb n hn).1
    rw [this, List.map_id]
  · split at h
    · split at h
      · rename_i l2 hl
        simp only [Except.ok.injEq] at h
        subst h
        obtain ⟨a, b⟩ := normalizeNames_spec hl
        refine ⟨a, fun n hn => ⟨?_, b n hn⟩⟩
        rw [a] at hn
        obtain ⟨m, _, rfl⟩ := List.mem_map.mp hn
        exact unbackslash_none m
      · cases h
    · cases h

end Savior
