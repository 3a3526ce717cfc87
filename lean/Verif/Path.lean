import Verif.Extract
/-!
# Path functions (Go's path, path/filepath and strings packages on Unix, as used by folder_sink.go and zipextractor.go)
-/

namespace Savior

/-- "/", ".", "..". -/
def slash : Byte := 47
def dot1 : Str := [46]
def dot2 : Str := [46, 46]

/-- `strings.Split(p, "/")`. -/
def splitSlash : Str → List Str
  | [] => [[]]
  | c :: t =>
    if c = slash then [] :: splitSlash t
    else match splitSlash t with
      | [] => [[c]]
      | h :: r => (c :: h) :: r

/-- `strings.Join(l, "/")`. -/
def joinSlash : List Str → Str
  | [] => []
  | [a] => a
  | a :: b :: r => a ++ slash :: joinSlash (b :: r)

/-- One element of a path processed by `Clean`, on the (reversed) elements kept so far. -/
def cleanStep (rooted : Bool) (st : List Str) (c : Str) : List Str :=
  if c = [] ∨ c = dot1 then st
  else if c = dot2 then
    match st with
    | [] => if rooted then [] else [c]
    | t :: r => if t = dot2 then c :: st else r
  else c :: st

/-- `filepath.IsAbs` (Unix; folder_sink.go:274). -/
def isAbs (p : Str) : Bool := p.head? = some slash

/-- The elements of `Clean(p)`. -/
def cleanComps (p : Str) : List Str := ((splitSlash p).foldl (cleanStep (isAbs p)) []).reverse

/-- `filepath.Clean` (Unix): lexical processing as documented in Go's path/filepath. -/
def clean (p : Str) : Str :=
  if isAbs p then slash :: joinSlash (cleanComps p)
  else if cleanComps p = [] then dot1 else joinSlash (cleanComps p)

/-- `filepath.Join(a, b)` for non-empty `a` (Unix; folder_sink.go:63, 278); an empty `b` adds nothing that `Clean` does not remove. -/
def joinPath (a b : Str) : Str := clean (a ++ slash :: b)

/-- `filepath.Abs` (Unix; folder_sink.go:59, 64, 269, 279); `cwd` is the answer of `os.Getwd`. -/
def absPath (cwd : Except Err Str) (p : Str) : Except Err Str :=
  if isAbs p then .ok (clean p)
  else match cwd with
    | .error e => .error e
    | .ok w => .ok (joinPath w p)

/-- `filepath.Dir` of a clean absolute path (Unix; folder_sink.go:118, 268, 292): everything but the last element. -/
def dirPath (p : Str) : Str := slash :: joinSlash (cleanComps p).dropLast

/-- `strings.HasPrefix` (folder_sink.go:69, 283). -/
def hasPrefix (s p : Str) : Bool := p.isPrefixOf s

/-- `path.Base` (folder_sink.go:49): the last element after removing trailing slashes; "." for the empty path, "/" for slashes only. -/
def pathBase (p : Str) : Str :=
  if p = [] then dot1
  else match ((splitSlash p).filter (· ≠ [])).getLast? with
    | none => [slash]
    | some c => c

/-- `filepath.IsLocal` (Unix; zipextractor.go:92). -/
def isLocal (p : Str) : Bool :=
  if isAbs p ∨ p = [] then false
  else
    let q := if (splitSlash p).any (fun c => c = dot1 ∨ c = dot2) then clean p else p
    !(q = dot2 ∨ hasPrefix q (dot2 ++ [slash]))

/-! ## Specification vocabulary -/

/-- An ordinary file name: not empty, not "." or "..", without a slash. -/
def Ordinary (n : Str) : Prop := n ≠ [] ∧ n ≠ dot1 ∧ n ≠ dot2 ∧ slash ∉ n

/-- Lexical depth reached below the start after reading elements left to right; `none` once it climbed above. -/
def depth : List Str → Nat → Option Nat
  | [], d => some d
  | c :: t, d =>
    if c = [] ∨ c = dot1 then depth t d
    else if c = dot2 then (match d with | 0 => none | d + 1 => depth t d)
    else depth t (d + 1)

/-- Reading the path's elements left to right never climbs above the starting folder. -/
def StaysInside (p : Str) : Prop := depth (splitSlash p) 0 ≠ none

/-! ## Lemmas -/

theorem splitSlash_ne (p : Str) : splitSlash p ≠ [] := by
  cases p with
  | nil => simp [splitSlash]
  | cons c t =>
    simp only [splitSlash]
    split
    · simp
    · split <;> simp

theorem splitSlash_nil : splitSlash [] = [[]] := rfl

theorem splitSlash_slash (t : Str) : splitSlash (slash :: t) = [] :: splitSlash t := by simp [splitSlash]

theorem splitSlash_append (a b : Str) : splitSlash (a ++ slash :: b) = splitSlash a ++ splitSlash b := by
  induction a with
  | nil => simp [splitSlash]
  | cons c t ih =>
    simp only [List.cons_append, splitSlash, ih]
    split
    · rfl
    · have := splitSlash_ne t
      cases h : splitSlash t with
      | nil => exact absurd h this
      | cons x r => simp

theorem splitSlash_atom {n : Str} (h : slash ∉ n) : splitSlash n = [n] := by
  induction n with
  | nil => rfl
  | cons c t ih =>
    simp only [List.mem_cons, not_or] at h
    simp only [splitSlash, ih h.2]
    rw [if_neg (by intro e; exact h.1 e.symm)]

theorem splitSlash_noslash (p : Str) : ∀ c ∈ splitSlash p, slash ∉ c := by
  induction p with
  | nil => simp [splitSlash]
  | cons c t ih =>
    simp only [splitSlash]
    split
    · intro x hx
      rcases List.mem_cons.mp hx with rfl | hx
      · simp
      · exact ih x hx
    · rename_i hc
      cases h : splitSlash t with
      | nil => simp [Ne.symm hc]
      | cons x r =>
        rw [h] at ih
        intro y hy
        rcases List.mem_cons.mp hy with rfl | hy
        · have := ih x (by simp)
          simp only [List.mem_cons, not_or]
          exact ⟨fun e => hc e.symm, this⟩
        · exact ih y (by simp [hy])

theorem splitSlash_join {l : List Str} (hne : l ≠ []) (h : ∀ c ∈ l, slash ∉ c) : splitSlash (joinSlash l) = l := by
  induction l with
  | nil => exact absurd rfl hne
  | cons a r ih =>
    cases r with
    | nil => exact splitSlash_atom (h a (by simp))
    | cons b r =>
      simp only [joinSlash]
      rw [splitSlash_append, ih (by simp) (fun c hc => h c (by simp [hc])), splitSlash_atom (h a (by simp))]
      rfl

theorem join_split (p : Str) : joinSlash (splitSlash p) = p := by
  induction p with
  | nil => rfl
  | cons c t ih =>
    simp only [splitSlash]
    have := splitSlash_ne t
    cases h : splitSlash t with
    | nil => exact absurd h this
    | cons x r =>
      rw [h] at ih
      split
      · rename_i hc
        simp only [joinSlash, List.nil_append, ih, hc]
      · cases r with
        | nil => simp only [joinSlash] at ih ⊢; rw [ih]
        | cons y r => simp only [joinSlash, List.cons_append] at ih ⊢; rw [ih]

theorem join_append {a b : List Str} (ha : a ≠ []) (hb : b ≠ []) : joinSlash (a ++ b) = joinSlash a ++ slash :: joinSlash b := by
  induction a with
  | nil => exact absurd rfl ha
  | cons x r ih =>
    cases r with
    | nil =>
      cases b with
      | nil => exact absurd rfl hb
      | cons y s => simp [joinSlash]
    | cons y r =>
      simp only [List.cons_append, joinSlash] at ih ⊢
      rw [ih (by simp)]
      simp

/-- All elements are ordinary names. -/
def AllOrd (l : List Str) : Prop := ∀ c ∈ l, Ordinary c

theorem cleanStep_ord {c : Str} (h : Ordinary c) (r : Bool) (st : List Str) : cleanStep r st c = c :: st := by
  simp [cleanStep, h.1, h.2.1, h.2.2.1]

theorem foldl_ord {l : List Str} (h : AllOrd l) (r : Bool) (st : List Str) : l.foldl (cleanStep r) st = l.reverse ++ st := by
  induction l generalizing st with
  | nil => rfl
  | cons a t ih =>
    simp only [List.foldl_cons, cleanStep_ord (h a (by simp)), List.reverse_cons, List.append_assoc, List.singleton_append]
    exact ih (fun c hc => h c (by simp [hc])) _

theorem cleanStep_allOrd {st : List Str} {c : Str} (hs : AllOrd st) (hc : slash ∉ c) : AllOrd (cleanStep true st c) := by
  unfold cleanStep
  split
  · exact hs
  · rename_i h1
    simp only [not_or] at h1
    split
    · split
      · simpa using hs
      · split
        · rename_i t r ht; exact absurd ht (hs t (by simp)).2.2.1
        · intro x hx; exact hs x (by simp [hx])
    · rename_i h2
      intro x hx
      rcases List.mem_cons.mp hx with rfl | hx
      · exact ⟨h1.1, h1.2, h2, hc⟩
      · exact hs x hx

theorem foldl_allOrd {l : List Str} (hl : ∀ c ∈ l, slash ∉ c) {st : List Str} (hs : AllOrd st) : AllOrd (l.foldl (cleanStep true) st) := by
  induction l generalizing st with
  | nil => exact hs
  | cons a t ih =>
    exact ih (fun c hc => hl c (by simp [hc])) (cleanStep_allOrd hs (hl a (by simp)))

theorem cleanComps_allOrd {p : Str} (h : isAbs p = true) : AllOrd (cleanComps p) := by
  unfold cleanComps
  rw [h]
  intro c hc
  exact foldl_allOrd (splitSlash_noslash p) (st := []) (by intro x hx; cases hx) c (by simpa using hc)

theorem isAbs_slash (t : Str) : isAbs (slash :: t) = true := by simp [isAbs]

theorem allOrd_noslash {l : List Str} (h : AllOrd l) : ∀ c ∈ l, slash ∉ c := fun c hc => (h c hc).2.2.2

/-- The elements of a rooted path made of ordinary names. -/
theorem foldl_rooted {l : List Str} (h : AllOrd l) (st : List Str) :
    (splitSlash (slash :: joinSlash l)).foldl (cleanStep true) st = l.reverse ++ st := by
  rw [splitSlash_slash]
  by_cases hl : l = []
  · subst hl; simp [joinSlash, splitSlash, cleanStep]
  · rw [splitSlash_join hl (allOrd_noslash h), List.foldl_cons, foldl_ord h]
    simp [cleanStep]

theorem cleanComps_rooted {l : List Str} (h : AllOrd l) : cleanComps (slash :: joinSlash l) = l := by
  unfold cleanComps
  rw [isAbs_slash, foldl_rooted h]
  simp

theorem clean_rooted {l : List Str} (h : AllOrd l) : clean (slash :: joinSlash l) = slash :: joinSlash l := by
  unfold clean
  rw [isAbs_slash, cleanComps_rooted h]
  rfl

theorem clean_abs {p : Str} (h : isAbs p = true) : clean p = slash :: joinSlash (cleanComps p) := by
  unfold clean; rw [h]; rfl

/-- Joining onto a clean rooted path. -/
theorem joinPath_rooted {l : List Str} (h : AllOrd l) (p : Str) :
    joinPath (slash :: joinSlash l) p = slash :: joinSlash (((splitSlash p).foldl (cleanStep true) l.reverse).reverse) := by
  unfold joinPath
  rw [clean_abs (by simp [isAbs])]
  unfold cleanComps
  rw [show isAbs (slash :: joinSlash l ++ slash :: p) = true by simp [isAbs], splitSlash_append, List.foldl_append, foldl_rooted h]
  simp

theorem rooted_inj {a b : List Str} (ha : AllOrd a) (hb : AllOrd b) (h : slash :: joinSlash a = slash :: joinSlash b) : a = b := by
  have := cleanComps_rooted ha
  rw [h, cleanComps_rooted hb] at this
  exact this.symm

/-- The textual prefix test is a test on elements, unless the base is the root. -/
theorem hasPrefix_iff {B J : List Str} (hB : AllOrd B) (hJ : AllOrd J) :
    hasPrefix (slash :: joinSlash J) ((slash :: joinSlash B) ++ [slash]) = true ↔ B ≠ [] ∧ ∃ C, C ≠ [] ∧ J = B ++ C := by
  unfold hasPrefix
  rw [List.isPrefixOf_iff_prefix]
  constructor
  · rintro ⟨r, hr⟩
    have hr' : joinSlash J = joinSlash B ++ slash :: r := by
      simpa using hr.symm
    by_cases hJ0 : J = []
    · rw [hJ0] at hr'
      have := congrArg List.length hr'
      simp [joinSlash] at this
    · have hs := splitSlash_join hJ0 (allOrd_noslash hJ)
      rw [hr', splitSlash_append] at hs
      by_cases hB0 : B = []
      · subst hB0
        simp only [joinSlash, splitSlash_nil] at hs
        have := (hJ [] (by rw [← hs]; simp)).1
        exact absurd rfl this
      · rw [splitSlash_join hB0 (allOrd_noslash hB)] at hs
        exact ⟨hB0, _, splitSlash_ne r, hs.symm⟩
  · rintro ⟨h0, C, hC, rfl⟩
    refine ⟨joinSlash C, ?_⟩
    rw [join_append h0 hC]
    simp

/-! ### Climbing -/

theorem foldl_depth {l : List Str} {st : List Str} {d : Nat} (hs : d = st.length) (B : List Str) (hst : AllOrd st) (hl : ∀ c ∈ l, slash ∉ c)
    {d' : Nat} (h : depth l d = some d') :
    l.foldl (cleanStep true) (st ++ B) = l.foldl (cleanStep true) st ++ B ∧ (l.foldl (cleanStep true) st).length = d' := by
  induction l generalizing st d with
  | nil => simp only [depth, Option.some.injEq] at h; exact ⟨rfl, by simp; omega⟩
  | cons c t ih =>
    have ht : ∀ c ∈ t, slash ∉ c := fun c hc => hl c (by simp [hc])
    simp only [depth] at h
    simp only [List.foldl_cons]
    by_cases h1 : c = [] ∨ c = dot1
    · rw [if_pos h1] at h
      have e : ∀ st, cleanStep true st c = st := by intro st; simp only [cleanStep, h1, if_true]
      rw [e, e]
      exact ih hs hst ht h
    · rw [if_neg h1] at h
      by_cases h2 : c = dot2
      · rw [if_pos h2] at h
        cases st with
        | nil => subst hs; simp at h
        | cons x r =>
          subst hs
          have hx := (hst x (by simp)).2.2.1
          have e : ∀ z, cleanStep true (x :: z) c = z := by intro z; rw [cleanStep, if_neg h1, if_pos h2]; simp [hx]
          rw [List.cons_append, e, e]
          exact ih rfl (fun y hy => hst y (by simp [hy])) ht (by simpa using h)
      · rw [if_neg h2] at h
        have e : ∀ z, cleanStep true z c = c :: z := by intro z; simp only [cleanStep, h1, h2, if_false]
        rw [e, e]
        have ho : AllOrd (c :: st) := by
          intro y hy
          rcases List.mem_cons.mp hy with rfl | hy
          · simp only [not_or] at h1; exact ⟨h1.1, h1.2, h2, hl _ (by simp)⟩
          · exact hst y hy
        exact ih (by simp [hs]) ho ht h

end Savior
