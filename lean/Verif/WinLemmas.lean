import Verif.Spec.Win
import Verif.DestLemmas
/-!
# Paths on Windows: lemmas
-/

namespace Savior

theorem fromSlash_append (a b : Str) : fromSlash (a ++ b) = fromSlash a ++ fromSlash b := by simp [fromSlash]
theorem fromSlash_cons (c : Byte) (b : Str) : fromSlash (c :: b) = (if c = slash then bslash else c) :: fromSlash b := by simp [fromSlash]
theorem toSlash_append (a b : Str) : toSlash (a ++ b) = toSlash a ++ toSlash b := by simp [toSlash]
theorem fromSlash_length (a : Str) : (fromSlash a).length = a.length := by simp [fromSlash]

theorem fromSlash_id {a : Str} (h : slash ∉ a) : fromSlash a = a := by
  induction a with
  | nil => rfl
  | cons c t ih =>
    simp only [List.mem_cons, not_or] at h
    rw [fromSlash_cons, if_neg (Ne.symm h.1), ih h.2]

theorem toSlash_no (a : Str) : bslash ∉ toSlash a := by
  simp only [toSlash, List.mem_map, not_exists, not_and]
  intro x _
  split
  · decide
  · rename_i h; exact h

theorem fromSlash_no (a : Str) : slash ∉ fromSlash a := by
  simp only [fromSlash, List.mem_map, not_exists, not_and]
  intro x _
  split
  · decide
  · rename_i h; exact h

theorem toSlash_from {a : Str} (h : bslash ∉ a) : toSlash (fromSlash a) = a := by
  induction a with
  | nil => rfl
  | cons c t ih =>
    simp only [List.mem_cons, not_or] at h
    simp only [fromSlash_cons]
    split
    · rename_i e; simp only [toSlash, List.map_cons] at ih ⊢; rw [ih h.2, e]; rfl
    · simp only [toSlash, List.map_cons] at ih ⊢; rw [ih h.2, if_neg (Ne.symm h.1)]

theorem winSep_iff (c : Byte) : winSep c = true ↔ c = slash ∨ c = bslash := by simp [winSep]

theorem winSep_from (c : Byte) : winSep (if c = slash then bslash else c) = winSep c := by
  split
  · rename_i h; subst h; decide
  · rfl

theorem fromSlash_sep {c : Byte} (h : winSep c = true) (t : Str) : fromSlash (c :: t) = bslash :: fromSlash t := by
  rw [fromSlash_cons]
  rcases (winSep_iff c).mp h with rfl | rfl <;> rfl

theorem toSlash_sep {c : Byte} (h : winSep c = true) (t : Str) : toSlash (c :: t) = slash :: toSlash t := by
  simp only [toSlash, List.map_cons]
  rcases (winSep_iff c).mp h with rfl | rfl <;> rfl

/-- The elements of a path consist of its bytes. -/
theorem splitSlash_mem (p : Str) : ∀ c ∈ splitSlash p, ∀ b ∈ c, b ∈ p := by
  induction p with
  | nil => simp [splitSlash]
  | cons x t ih =>
    simp only [splitSlash]
    split
    · intro c hc b hb
      rcases List.mem_cons.mp hc with rfl | hc
      · cases hb
      · exact List.mem_cons_of_mem _ (ih c hc b hb)
    · cases h : splitSlash t with
      | nil => intro c hc b hb; simp at hc; subst hc; simp at hb; subst hb; simp
      | cons y r =>
        rw [h] at ih
        intro c hc b hb
        rcases List.mem_cons.mp hc with rfl | hc
        · rcases List.mem_cons.mp hb with rfl | hb
          · simp
          · exact List.mem_cons_of_mem _ (ih y (by simp) b hb)
        · exact List.mem_cons_of_mem _ (ih c (by simp [hc]) b hb)

theorem lexWalk_mem (l : List Str) (cur : Path) : ∀ c ∈ lexWalk cur l, c ∈ cur ∨ c ∈ l := by
  induction l generalizing cur with
  | nil => intro c hc; exact Or.inl hc
  | cons x t ih =>
    simp only [lexWalk]
    intro c hc
    split at hc
    · rcases ih _ c hc with h | h
      · exact Or.inl h
      · exact Or.inr (by simp [h])
    · split at hc
      · rcases ih _ c hc with h | h
        · exact Or.inl (List.dropLast_subset _ h)
        · exact Or.inr (by simp [h])
      · rcases ih _ c hc with h | h
        · rcases List.mem_append.mp h with h | h
          · exact Or.inl h
          · simp at h; subst h; exact Or.inr (by simp)
        · exact Or.inr (by simp [h])

/-- All names are ordinary, on Windows. -/
def AllWin (l : Path) : Prop := ∀ c ∈ l, WinOrdinary c

theorem AllWin.ord {l : Path} (h : AllWin l) : AllOrd l := fun c hc => (h c hc).1

theorem join_noback {l : Path} (h : AllWin l) : bslash ∉ joinSlash l := by
  induction l with
  | nil => simp [joinSlash]
  | cons a r ih =>
    cases r with
    | nil => simpa [joinSlash] using (h a (by simp)).2
    | cons b r =>
      simp only [joinSlash, List.mem_append, List.mem_cons, not_or]
      exact ⟨(h a (by simp)).2, by decide, ih (fun c hc => h c (by simp [hc]))⟩

theorem walk_allWin {cur : Path} (hc : AllWin cur) (r : Str) : AllWin (lexWalk cur (splitSlash (toSlash r))) := by
  intro c hm
  refine ⟨(lexWalk_eq hc.ord (splitSlash_noslash _)).2 c hm, ?_⟩
  rcases lexWalk_mem _ _ c hm with h | h
  · exact (hc c h).2
  · intro hb; exact toSlash_no r (splitSlash_mem _ c h _ hb)

theorem allWin_nil : AllWin [] := fun _ h => nomatch h

theorem lexWalk_root (l : List Str) : lexWalk [] ([] :: l) = lexWalk [] l := by simp [lexWalk]

/-! ### Volumes -/

theorem cut_at {a s x y : Str} (ha : bslash ∉ a) (hs : bslash ∉ s) (h : a ++ bslash :: x = s ++ bslash :: y) : a = s ∧ x = y := by
  induction a generalizing s with
  | nil =>
    cases s with
    | nil => simpa using h
    | cons c t =>
      simp only [List.nil_append, List.cons_append, List.cons.injEq] at h
      simp only [List.mem_cons, not_or] at hs
      exact absurd h.1 hs.1
  | cons c t ih =>
    cases s with
    | nil =>
      simp only [List.nil_append, List.cons_append, List.cons.injEq] at h
      simp only [List.mem_cons, not_or] at ha
      exact absurd h.1.symm ha.1
    | cons d u =>
      simp only [List.cons_append, List.cons.injEq] at h
      simp only [List.mem_cons, not_or] at ha hs
      obtain ⟨e1, e2⟩ := ih ha.2 hs.2 h.2
      exact ⟨by rw [h.1, e1], e2⟩

/-- No separator in it. -/
def NoSep (a : Str) : Prop := ∀ c ∈ a, winSep c = false

theorem NoSep.slash {a : Str} (h : NoSep a) : slash ∉ a := fun hc => by have := h _ hc; revert this; decide
theorem NoSep.back {a : Str} (h : NoSep a) : bslash ∉ a := fun hc => by have := h _ hc; revert this; decide
theorem noSep_of {a : Str} (h1 : slash ∉ a) (h2 : bslash ∉ a) : NoSep a := by
  intro c hc
  cases h : winSep c with
  | false => rfl
  | true =>
    rcases (winSep_iff c).mp h with rfl | rfl
    · exact absurd hc h1
    · exact absurd hc h2

theorem uncScan_one {a : Str} (h : NoSep a) (t : Str) : uncScan 1 (a ++ t) = a.length + uncScan 1 t := by
  induction a with
  | nil => simp
  | cons c r ih =>
    simp only [List.cons_append, uncScan, h c (by simp), Bool.false_eq_true, if_false, List.length_cons]
    rw [ih (fun x hx => h x (by simp [hx]))]
    omega

theorem uncScan_zero {a : Str} (h : NoSep a) (t : Str) : uncScan 0 (a ++ t) = a.length + uncScan 0 t := by
  induction a with
  | nil => simp
  | cons c r ih =>
    simp only [List.cons_append, uncScan, h c (by simp), Bool.false_eq_true, if_false, List.length_cons]
    rw [ih (fun x hx => h x (by simp [hx]))]
    omega

/-- A text is free of separators, or it has a first one. -/
theorem first_sep (l : Str) : NoSep l ∨ ∃ a c t, l = a ++ c :: t ∧ NoSep a ∧ winSep c = true := by
  induction l with
  | nil => left; intro c hc; cases hc
  | cons x t ih =>
    cases h : winSep x with
    | true => right; exact ⟨[], x, t, rfl, (fun c hc => by cases hc), h⟩
    | false =>
      rcases ih with hn | ⟨a, c, r, rfl, ha, hc⟩
      · left
        intro c hc
        rcases List.mem_cons.mp hc with rfl | hc
        · exact h
        · exact hn c hc
      · right
        refine ⟨x :: a, c, r, rfl, ?_, hc⟩
        intro d hd
        rcases List.mem_cons.mp hd with rfl | hd
        · exact h
        · exact ha d hd

theorem uncScan_share {a b : Str} (ha : NoSep a) (hb : NoSep b) {c : Byte} (hc : winSep c = true) {t : Str} (ht : t = [] ∨ ∃ d u, t = d :: u ∧ winSep d = true) :
    uncScan 0 (a ++ c :: (b ++ t)) = a.length + 1 + b.length := by
  rw [uncScan_zero ha]
  simp only [uncScan, hc, if_true, Nat.zero_ne_one, if_false]
  rw [uncScan_one hb]
  rcases ht with rfl | ⟨d, u, rfl, hd⟩
  · simp [uncScan]; omega
  · simp [uncScan, hd]; omega

/-- What `uncScan` does. -/
theorem uncScan_cases (l : Str) :
    (uncScan 0 l = l.length ∧ (NoSep l ∨ ∃ a c b, l = a ++ c :: b ∧ NoSep a ∧ NoSep b ∧ winSep c = true)) ∨
    (∃ a c b d t, l = a ++ c :: (b ++ d :: t) ∧ NoSep a ∧ NoSep b ∧ winSep c = true ∧ winSep d = true ∧ uncScan 0 l = a.length + 1 + b.length) := by
  rcases first_sep l with h | ⟨a, c, t, rfl, ha, hc⟩
  · left
    refine ⟨?_, Or.inl h⟩
    have := uncScan_zero h []
    simpa [uncScan] using this
  · rcases first_sep t with h | ⟨b, d, u, rfl, hb, hd⟩
    · left
      refine ⟨?_, Or.inr ⟨a, c, t, rfl, ha, h, hc⟩⟩
      have := uncScan_share ha h hc (t := []) (Or.inl rfl)
      rw [List.append_nil] at this
      rw [this]; simp; omega
    · right
      exact ⟨a, c, b, d, u, rfl, ha, hb, hc, hd, uncScan_share ha hb hc (Or.inr ⟨d, u, rfl, hd⟩)⟩

theorem byte_cases {P : Byte → Prop} (h : ∀ n < 256, P (UInt8.ofNat n)) (c : Byte) : P c := by
  have := h c.toNat c.toNat_lt
  rwa [UInt8.ofNat_toNat] at this

theorem up_dot : ∀ c, upByte 46 = upByte c → c = 46 := byte_cases (by decide +kernel)
theorem up_quest : ∀ c, upByte 63 = upByte c → c = 63 := byte_cases (by decide +kernel)

/-- A path that is taken for a device path. -/
theorem prefixFold_dev {p : Str} (h : (prefixFold p [92, 92, 46, 92, 85, 78, 67] || prefixFold p [92, 92, 46] || prefixFold p [92, 92, 63]) = true) :
    ∃ a b c t, p = a :: b :: c :: t ∧ winSep a = true ∧ winSep b = true ∧ (c = 46 ∨ c = 63) ∧ (t = [] ∨ ∃ d u, t = d :: u ∧ winSep d = true) := by
  have s92 : winSep 92 = true := by decide
  have s46 : winSep 46 = false := by decide
  have s63 : winSep 63 = false := by decide
  match p with
  | [] => simp [prefixFold] at h
  | [a] => simp [prefixFold] at h
  | [a, b] => simp [prefixFold] at h
  | [a, b, c] =>
    simp only [prefixFold, s92, s46, s63, if_true, Bool.false_eq_true, if_false, Bool.and_false, Bool.false_or, Bool.and_true, Bool.or_eq_true, Bool.and_eq_true, decide_eq_true_eq] at h
    rcases h with ⟨h1, h2, h3⟩ | ⟨h1, h2, h3⟩
    · exact ⟨a, b, c, [], rfl, h1, h2, Or.inl (up_dot _ h3), Or.inl rfl⟩
    · exact ⟨a, b, c, [], rfl, h1, h2, Or.inr (up_quest _ h3), Or.inl rfl⟩
  | a :: b :: c :: d :: t =>
    simp only [prefixFold, s92, s46, s63, if_true, Bool.false_eq_true, if_false, Bool.or_eq_true, Bool.and_eq_true, decide_eq_true_eq] at h
    rcases h with (⟨h1, h2, h3, h4, _⟩ | ⟨h1, h2, h3, h4⟩) | ⟨h1, h2, h3, h4⟩
    · exact ⟨a, b, c, d :: t, rfl, h1, h2, Or.inl (up_dot _ h3), Or.inr ⟨d, t, rfl, h4⟩⟩
    · exact ⟨a, b, c, d :: t, rfl, h1, h2, Or.inl (up_dot _ h3), Or.inr ⟨d, t, rfl, h4⟩⟩
    · exact ⟨a, b, c, d :: t, rfl, h1, h2, Or.inr (up_quest _ h3), Or.inr ⟨d, t, rfl, h4⟩⟩

theorem prefixFold_q {p : Str} (h : prefixFold p [92, 63, 63] = true) : ∃ a t, p = a :: 63 :: t := by
  have s92 : winSep 92 = true := by decide
  have s63 : winSep 63 = false := by decide
  match p with
  | [] => simp [prefixFold] at h
  | [a] => simp [prefixFold] at h
  | a :: b :: t =>
    simp only [prefixFold, s92, s63, if_true, Bool.false_eq_true, if_false, Bool.and_eq_true, decide_eq_true_eq] at h
    exact ⟨a, t, by rw [up_quest _ h.2.1]⟩

/-- The length of a volume name followed by nothing or a separator. -/
theorem volLen_vol {V : Str} (hV : WinVol (fromSlash V)) {R : Str} (hR : (R = [] ∧ ∀ c, fromSlash V ≠ [c, colon]) ∨ ∃ d u, R = d :: u ∧ winSep d = true) :
    volLen (V ++ R) = V.length := by
  have hlen := fromSlash_length V
  generalize hW : fromSlash V = W at hV hR hlen
  cases hV with
  | drive c hc =>
    match V with
    | [a, b] =>
      simp only [fromSlash, List.map_cons, List.map_nil, List.cons.injEq, and_true] at hW
      have hb : b = colon := by
        have := hW.2
        split at this
        · exact absurd this (by decide)
        · exact this
      subst hb
      rfl
  | share server share hs hq h0 h1 h2 =>
    match V with
    | [] => simp [fromSlash] at hW
    | [a] => simp [fromSlash] at hW
    | a :: b :: l =>
      simp only [fromSlash_cons, List.cons_append, List.cons.injEq] at hW
      obtain ⟨ha, hb, hl⟩ := hW
      have sa : winSep a = true := by rw [← winSep_from, ha]; decide
      have sb : winSep b = true := by rw [← winSep_from, hb]; decide
      -- split `l`
      have hx : ∃ x c y, l = x ++ c :: y ∧ x = server ∧ y = share ∧ winSep c = true := by
        rw [fromSlash, List.map_eq_append_iff] at hl
        obtain ⟨x, z, rfl, e1, e2⟩ := hl
        rw [List.map_eq_cons_iff] at e2
        obtain ⟨c, y, rfl, e3, e4⟩ := e2
        have nox : slash ∉ x := by
          intro hm
          refine hs.2 ?_
          rw [← e1, List.mem_map]
          exact ⟨_, hm, by simp⟩
        have noy : slash ∉ y := by
          intro hm
          refine h2 ?_
          rw [← e4, List.mem_map]
          exact ⟨_, hm, by simp⟩
        refine ⟨x, c, y, rfl, ?_, ?_, by rw [← winSep_from, e3]; decide⟩
        · rw [← e1]; exact (fromSlash_id nox).symm
        · rw [← e4]; exact (fromSlash_id noy).symm
      obtain ⟨x, c, y, rfl, rfl, rfl, sc⟩ := hx
      have nx : NoSep x := noSep_of hs.1.2.2.2 hs.2
      have ny : NoSep y := noSep_of h1 h2
      have nb : b ≠ colon := by rintro rfl; revert sb; decide
      have hdev : (prefixFold (a :: b :: (x ++ c :: y) ++ R) [92, 92, 46, 92, 85, 78, 67] || prefixFold (a :: b :: (x ++ c :: y) ++ R) [92, 92, 46] ||
          prefixFold (a :: b :: (x ++ c :: y) ++ R) [92, 92, 63]) = false := by
        cases hh : (prefixFold (a :: b :: (x ++ c :: y) ++ R) [92, 92, 46, 92, 85, 78, 67] || prefixFold (a :: b :: (x ++ c :: y) ++ R) [92, 92, 46] ||
          prefixFold (a :: b :: (x ++ c :: y) ++ R) [92, 92, 63]) with
        | false => rfl
        | true =>
          exfalso
          obtain ⟨a', b', c', t, e, _, _, hc', ht⟩ := prefixFold_dev hh
          simp only [List.cons_append, List.append_assoc, List.cons.injEq] at e
          obtain ⟨_, _, e⟩ := e
          cases x with
          | nil => exact hs.1.1 rfl
          | cons x0 xs =>
            simp only [List.cons_append, List.cons.injEq] at e
            obtain ⟨e1, e2⟩ := e
            cases xs with
            | nil =>
              rcases hc' with h | h
              · exact hs.1.2.1 (by rw [e1, h]; rfl)
              · exact hq (by rw [e1, h])
            | cons x1 xs =>
              rcases ht with rfl | ⟨d, u, rfl, hd⟩
              · simp at e2
              · simp only [List.cons_append, List.cons.injEq] at e2
                rw [← e2.1] at hd
                rw [nx x1 (by simp)] at hd
                cases hd
      have hq3 : prefixFold (a :: b :: (x ++ c :: y) ++ R) [92, 63, 63] = false := by
        cases hh : prefixFold (a :: b :: (x ++ c :: y) ++ R) [92, 63, 63] with
        | false => rfl
        | true =>
          exfalso
          obtain ⟨a', t, e⟩ := prefixFold_q hh
          simp only [List.cons_append, List.cons.injEq] at e
          rw [e.2.1] at sb
          revert sb; decide
      simp only [Bool.or_eq_false_iff] at hdev
      unfold volLen
      rw [if_neg (by simpa using nb), if_neg (by simp [sa]), hdev.1.1, hdev.1.2, hdev.2, hq3]
      simp only [Bool.false_eq_true, if_false, Bool.or_self]
      rw [if_pos (by simp [sb])]
      have : (a :: b :: (x ++ c :: y) ++ R).drop 2 = x ++ c :: (y ++ R) := by simp
      rw [this, uncScan_share nx ny sc (hR.elim (fun h => Or.inl h.1) Or.inr)]
      simp; omega


/-! ### Clean -/

/-- A rooted rest, cleaned. -/
theorem clean_rest (R : Str) {c : Byte} (hc : winSep c = true) :
    fromSlash (clean (toSlash (c :: R))) = bslash :: fromSlash (joinSlash (lexWalk [] (splitSlash (toSlash R)))) := by
  rw [toSlash_sep hc, clean_abs (isAbs_slash _), ← placeOf_eq (isAbs_slash _)]
  unfold placeOf
  rw [splitSlash_slash, lexWalk_root]
  exact fromSlash_cons _ _

theorem cleanWin_rooted {V R : Str} {c : Byte} (hV : WinVol (fromSlash V)) (hc : winSep c = true) :
    cleanWin (V ++ c :: R) = winText (fromSlash V) (lexWalk [] (splitSlash (toSlash R))) := by
  unfold cleanWin
  rw [volLen_vol hV (Or.inr ⟨c, R, rfl, hc⟩)]
  simp only [List.drop_left, List.take_left]
  rw [if_neg (by simp), fromSlash_append, clean_rest R hc]
  rfl

theorem cleanWin_share {V : Str} (hV : WinVol (fromSlash V)) (hd : ∀ c, fromSlash V ≠ [c, colon]) : cleanWin V = fromSlash V := by
  have hv := volLen_vol hV (R := []) (Or.inl ⟨rfl, hd⟩)
  rw [List.append_nil] at hv
  unfold cleanWin
  rw [hv]
  simp only [List.drop_length]
  rw [if_pos trivial]
  generalize hW : fromSlash V = W at hV hd
  cases hV with
  | drive c hc => exact absurd rfl (hd c)
  | share server share hs hq h0 h1 h2 =>
    match V with
    | [] => simp [fromSlash] at hW
    | [a] => simp [fromSlash] at hW
    | a :: b :: l =>
      have hW' := hW
      simp only [fromSlash_cons, List.cons_append, List.cons.injEq] at hW'
      obtain ⟨ha, hb, _⟩ := hW'
      have sa : winSep a = true := by rw [← winSep_from, ha]; decide
      have sb : winSep b = true := by rw [← winSep_from, hb]; decide
      rw [if_pos (by simp [sa, sb])]
      try rw [hW]

/-- The text of the sink's directory. -/
theorem winBase_abs {w : WCfg} {V : Str} {B : Path} (h : w.Base V B) :
    WinVol V ∧ AllWin B ∧ (w.abs w.dir = .ok (winText V B) ∨ (w.abs w.dir = .ok V ∧ B = [] ∧ ∀ c, V ≠ [c, colon])) := by
  cases h with
  | rooted V R c hf hV hc =>
    refine ⟨hV, walk_allWin allWin_nil R, Or.inl ?_⟩
    unfold WCfg.abs
    rw [hf]
    simp only
    rw [cleanWin_rooted hV hc]
  | share V hf hV hd =>
    refine ⟨hV, allWin_nil, Or.inr ⟨?_, rfl, hd⟩⟩
    unfold WCfg.abs
    rw [hf]
    simp only
    rw [cleanWin_share hV hd]

theorem fromSlash_head {p q : Str} (h : fromSlash p = bslash :: q) : ∃ c t, p = c :: t ∧ winSep c = true := by
  cases p with
  | nil => simp [fromSlash] at h
  | cons c t =>
    rw [fromSlash_cons, List.cons.injEq] at h
    exact ⟨c, t, rfl, by rw [← winSep_from, h.1]; decide⟩

/-- A cleaned rest that starts with a separator was rooted. -/
theorem clean_rooted_rest {r q : Str} (h : fromSlash (clean (toSlash r)) = bslash :: q) :
    ∃ c R, r = c :: R ∧ winSep c = true ∧ q = fromSlash (joinSlash (lexWalk [] (splitSlash (toSlash R)))) := by
  by_cases ha : isAbs (toSlash r) = true
  · cases r with
    | nil => simp [isAbs, toSlash] at ha
    | cons c R =>
      have hc : winSep c = true := by
        simp only [isAbs, toSlash, List.map_cons, List.head?_cons, Option.some.injEq, decide_eq_true_eq] at ha
        rw [winSep_iff]
        split at ha
        · rename_i e; exact Or.inr e
        · exact Or.inl ha
      refine ⟨c, R, rfl, hc, ?_⟩
      rw [clean_rest R hc, List.cons.injEq] at h
      exact h.2.symm
  · exfalso
    obtain ⟨c, t, e, hc⟩ := fromSlash_head h
    have nb : bslash ∉ clean (toSlash r) := by
      intro hm
      have := fromSlash_no (clean (toSlash r))
      -- the bytes of a cleaned path are its own, "/" and "."
      have key : ∀ x ∈ cleanComps (toSlash r), bslash ∉ x := by
        intro x hx hb
        unfold cleanComps at hx
        rw [List.mem_reverse] at hx
        have mem : ∀ (l st : List Str), x ∈ l.foldl (cleanStep (isAbs (toSlash r))) st → x ∈ st ∨ x ∈ l := by
          intro l
          induction l with
          | nil => intro st h; exact Or.inl h
          | cons y l ih =>
            intro st h
            rcases ih _ h with h | h
            · unfold cleanStep at h
              split at h
              · exact Or.inl h
              · split at h
                · rename_i hy
                  split at h
                  · simp at h; exact Or.inr (by simp [h])
                  · split at h
                    · rcases List.mem_cons.mp h with h | h
                      · exact Or.inr (by simp [h])
                      · exact Or.inl h
                    · exact Or.inl (by simp [h])
                · rcases List.mem_cons.mp h with h | h
                  · exact Or.inr (by simp [h])
                  · exact Or.inl h
            · exact Or.inr (by simp [h])
        rcases mem _ _ hx with h | h
        · cases h
        · exact toSlash_no r (splitSlash_mem _ x h _ hb)
      have hj : ∀ l : List Str, (∀ x ∈ l, bslash ∉ x) → bslash ∉ joinSlash l := by
        intro l hl
        induction l with
        | nil => simp [joinSlash]
        | cons a l ih =>
          cases l with
          | nil => simpa [joinSlash] using hl a (by simp)
          | cons b l =>
            simp only [joinSlash, List.mem_append, List.mem_cons, not_or]
            exact ⟨hl a (by simp), by decide, ih (fun x hx => hl x (by simp [hx]))⟩
      unfold clean at hm
      rw [if_neg ha] at hm
      split at hm
      · revert hm; decide
      · exact hj _ key hm
    have hc' : c = slash := by
      rcases (winSep_iff c).mp hc with h | h
      · exact h
      · exact absurd (by rw [e, h]; simp) nb
    subst hc'
    unfold clean at e
    rw [if_neg ha] at e
    split at e
    · revert e; simp [dot1, slash]
    · rename_i hne
      cases hcc : cleanComps (toSlash r) with
      | nil => exact hne hcc
      | cons x l =>
        have hx : slash ∉ x ∧ x ≠ [] := by
          have hm : x ∈ cleanComps (toSlash r) := by rw [hcc]; simp
          unfold cleanComps at hm
          rw [List.mem_reverse] at hm
          have mem : ∀ (l st : List Str), (∀ y ∈ l, slash ∉ y) → (∀ y ∈ st, slash ∉ y ∧ y ≠ []) →
              ∀ y ∈ l.foldl (cleanStep (isAbs (toSlash r))) st, slash ∉ y ∧ y ≠ [] := by
            intro l
            induction l with
            | nil => intro st _ h; exact h
            | cons z l ih =>
              intro st hl hst
              refine ih _ (fun y hy => hl y (by simp [hy])) ?_
              have hz := hl z (by simp)
              unfold cleanStep
              split
              · exact hst
              · rename_i h0
                simp only [not_or] at h0
                have hz' : slash ∉ z ∧ z ≠ [] := ⟨hz, h0.1⟩
                split
                · split
                  · intro y hy; simp at hy; rw [hy]; exact hz'
                  · split
                    · intro y hy
                      rcases List.mem_cons.mp hy with rfl | hy
                      · exact hz'
                      · exact hst y hy
                    · intro y hy; exact hst y (by simp [hy])
                · intro y hy
                  rcases List.mem_cons.mp hy with rfl | hy
                  · exact hz'
                  · exact hst y hy
          exact mem _ [] (splitSlash_noslash _) (by intro y hy; cases hy) x hm
        rw [hcc] at e
        cases x with
        | nil => exact hx.2 rfl
        | cons x0 xs =>
          have : x0 = slash := by
            cases l with
            | nil => simp only [joinSlash, List.cons.injEq] at e; exact e.1
            | cons b l => simp only [joinSlash, List.cons_append, List.cons.injEq] at e; exact e.1
          exact hx.1 (by simp [this])

/-- **A cleaned path that starts with a volume and a separator is what it looks like.** -/
theorem cleanWin_inv {V : Str} (hV : WinVol V) {y q : Str} (hy : 2 ≤ volLen y) (h : cleanWin y = V ++ bslash :: q) :
    ∃ J, AllWin J ∧ q = fromSlash (joinSlash J) := by
  have hnil : ∀ {x : Str}, winSep ((x.head?).getD 0) = true → ∀ t, x ≠ [] → winSep (((x ++ t).head?).getD 0) = true := by
    intro x hx t h0
    cases x with
    | nil => exact absurd rfl h0
    | cons a b => exact hx
  -- the three forms
  match y with
  | [] => simp [volLen] at hy
  | [a] => 
    exfalso
    unfold volLen at hy
    cases sa : winSep a with
    | false => simp [sa] at hy
    | true =>
      simp only [List.getElem?_cons_succ, List.getElem?_nil, reduceCtorEq, if_false, List.head?_cons, Option.map_some, sa, Option.getD_some] at hy
      simp [prefixFold] at hy
  | a :: b :: l =>
    have hsome : (a :: b :: l)[1]? = some b := rfl
    by_cases hb : b = colon
    · -- a drive
      subst hb
      have hv : volLen (a :: colon :: l) = 2 := by unfold volLen; exact if_pos (by rfl)
      have nc : winSep colon = false := by decide
      unfold cleanWin at h
      rw [hv] at h
      simp only [List.drop_succ_cons, List.drop_zero, List.take_succ_cons, List.take_zero, hsome, Option.map_some, nc, Option.getD_some, Bool.false_eq_true, and_false, if_false] at h
      cases hV with
      | drive c hc =>
        split at h
        · rename_i hl
          subst hl
          simp only [List.cons_append, List.nil_append, List.cons.injEq, dot1] at h
          exact absurd h.2.2.1 (by decide)
        · simp only [fromSlash_append, fromSlash_cons, List.cons_append, List.nil_append, List.cons.injEq] at h
          have h' : fromSlash (clean (toSlash l)) = bslash :: q := h.2.2
          obtain ⟨d, R, rfl, hd, e⟩ := clean_rooted_rest h'
          exact ⟨_, walk_allWin allWin_nil R, e⟩
      | share server share hs hq h0 h1 h2 =>
        exfalso
        split at h
        · simp only [List.cons_append, List.cons.injEq] at h
          exact absurd h.2.1 (by decide)
        · simp only [fromSlash_append, fromSlash_cons, List.cons_append, List.cons.injEq] at h
          exact absurd h.2.1 (by decide)
    · -- not a drive
      have sa : winSep a = true := by
        cases sa : winSep a with
        | true => rfl
        | false =>
          exfalso
          unfold volLen at hy
          rw [if_neg (by simpa using hb)] at hy
          simp [sa] at hy
      have shape : ∃ r, cleanWin (a :: b :: l) = (if winSep b then bslash :: bslash :: r else cleanWin (a :: b :: l)) ∧
          ∃ r', cleanWin (a :: b :: l) = (if a = slash then bslash else a) :: r' ∨ cleanWin (a :: b :: l) = a :: r' := by
        refine ⟨fromSlash ((cleanWin (a :: b :: l)).drop 2), ?_, ?_⟩
        · cases sb : winSep b with
          | false => rfl
          | true =>
            simp only [if_true]
            unfold cleanWin
            simp only [hsome, Option.map_some, sb, Option.getD_some, List.head?_cons, sa, and_self, and_true]
            have fin : ∀ t : Str, fromSlash (a :: b :: t) = bslash :: bslash :: fromSlash ((fromSlash (a :: b :: t)).drop 2) := by
              intro t
              rw [fromSlash_sep sa, fromSlash_sep sb]
              simp only [List.drop_succ_cons, List.drop_zero]
              rw [fromSlash_id (fromSlash_no t)]
            obtain ⟨n, hn⟩ : ∃ n, volLen (a :: b :: l) = n + 2 := ⟨volLen (a :: b :: l) - 2, by omega⟩
            rw [hn]
            simp only [if_pos (show 1 < n + 2 by omega)]
            split
            · exact fin l
            · simp only [List.take_succ_cons, List.cons_append]; exact fin _
        · unfold cleanWin
          simp only
          obtain ⟨n, hn⟩ : ∃ n, volLen (a :: b :: l) = n + 2 := ⟨volLen (a :: b :: l) - 2, by omega⟩
          rw [hn]
          split
          · split
            · exact ⟨_, Or.inl (fromSlash_cons _ _)⟩
            · exact ⟨b :: l ++ dot1, Or.inr rfl⟩
          · simp only [List.take_succ_cons, List.cons_append]
            exact ⟨_, Or.inl (fromSlash_cons _ _)⟩
      obtain ⟨r, hr, r', hr'⟩ := shape
      cases hV with
      | drive c hc =>
        exfalso
        rw [h] at hr'
        simp only [List.cons_append, List.cons.injEq] at hr'
        rcases hr' with ⟨e, _⟩ | ⟨e, _⟩
        · have := winSep_from a
          rw [← e, hc, sa] at this
          cases this
        · rw [e, sa] at hc; cases hc
      | share server share hs hq h0 h1 h2 =>
        have nsrv : NoSep server := noSep_of hs.1.2.2.2 hs.2
        have nshr : NoSep share := noSep_of h1 h2
        have sb : winSep b = true := by
          cases sb : winSep b with
          | true => rfl
          | false =>
            exfalso
            unfold cleanWin at h
            simp only [hsome, Option.map_some, sb, Option.getD_some, Bool.false_eq_true, and_false, if_false] at h
            obtain ⟨n, hn⟩ : ∃ n, volLen (a :: b :: l) = n + 2 := ⟨volLen (a :: b :: l) - 2, by omega⟩
            rw [hn] at h
            split at h
            · simp only [List.cons_append, List.cons.injEq] at h
              rw [h.2.1] at sb
              revert sb; decide
            · simp only [List.take_succ_cons, List.cons_append, fromSlash_cons, List.cons.injEq] at h
              have := winSep_from b
              rw [h.2.1, sb] at this
              revert this; decide
        -- not a device
        have notdev : (prefixFold (a :: b :: l) [92, 92, 46, 92, 85, 78, 67] || prefixFold (a :: b :: l) [92, 92, 46] || prefixFold (a :: b :: l) [92, 92, 63]) = false := by
          cases hh : (prefixFold (a :: b :: l) [92, 92, 46, 92, 85, 78, 67] || prefixFold (a :: b :: l) [92, 92, 46] || prefixFold (a :: b :: l) [92, 92, 63]) with
          | false => rfl
          | true =>
            exfalso
            obtain ⟨a', b', c', t, e, _, _, hc', ht⟩ := prefixFold_dev hh
            simp only [List.cons.injEq] at e
            obtain ⟨rfl, rfl, rfl⟩ := e
            have nc : winSep c' = false := by rcases hc' with rfl | rfl <;> decide
            have nsl : c' ≠ slash := by rcases hc' with rfl | rfl <;> decide
            have bad : ∀ z, server ++ bslash :: (share ++ bslash :: q) = c' :: z → (z = [] ∨ ∃ d u, z = d :: u ∧ winSep d = true) → False := by
              intro z hz hz'
              cases server with
              | nil => exact hs.1.1 rfl
              | cons x0 xs =>
                simp only [List.cons_append, List.cons.injEq] at hz
                obtain ⟨e1, e2⟩ := hz
                cases xs with
                | nil =>
                  rcases hc' with h | h
                  · exact hs.1.2.1 (by rw [e1, h]; rfl)
                  · exact hq (by rw [e1, h])
                | cons x1 xs =>
                  rcases hz' with rfl | ⟨d, u, rfl, hd⟩
                  · simp at e2
                  · simp only [List.cons_append, List.cons.injEq] at e2
                    rw [← e2.1, nsrv x1 (by simp)] at hd
                    cases hd
            unfold cleanWin at h
            simp only [hsome, Option.map_some, sb, Option.getD_some, List.head?_cons, sa, and_self, and_true] at h
            have hv4 : 3 ≤ volLen (a :: b :: c' :: t) ∧ (∀ d u, t = d :: u → 4 ≤ volLen (a :: b :: c' :: t)) := by
              have p7 : prefixFold (a :: b :: c' :: t) [92, 92, 46, 92, 85, 78, 67] = true → 7 ≤ t.length + 3 := by
                intro hp
                match t with
                | [] => simp [prefixFold] at hp
                | [_] => simp [prefixFold] at hp
                | [_, _] => simp [prefixFold] at hp
                | [_, _, _] => simp [prefixFold] at hp
                | _ :: _ :: _ :: _ :: _ => simp
              unfold volLen
              rw [if_neg (by simpa using hb), if_neg (by simp [sa])]
              split
              · rename_i hp
                have := p7 hp
                simp only [List.length_cons]
                exact ⟨by omega, fun _ _ _ => by omega⟩
              · rename_i hp
                rw [if_pos (by
                  simp only [Bool.or_eq_true] at hh ⊢
                  rcases hh with (hh | hh) | hh
                  · exact absurd hh hp
                  · exact Or.inl (Or.inl hh)
                  · exact Or.inl (Or.inr hh))]
                split
                · rename_i h3
                  refine ⟨by omega, ?_⟩
                  rintro d u rfl
                  simp only [List.length_cons] at h3
                  omega
                · exact ⟨by omega, fun _ _ _ => by omega⟩
            obtain ⟨n, hn⟩ : ∃ n, volLen (a :: b :: c' :: t) = n + 3 := ⟨volLen (a :: b :: c' :: t) - 3, by omega⟩
            rw [hn] at h
            simp only [if_pos (show 1 < n + 3 by omega)] at h
            have hrw : ∀ z, fromSlash (a :: b :: c' :: z) = (bslash :: bslash :: server ++ bslash :: share) ++ bslash :: q →
                server ++ bslash :: (share ++ bslash :: q) = c' :: fromSlash z := by
              intro z hz
              rw [fromSlash_sep sa, fromSlash_sep sb, fromSlash_cons, if_neg nsl] at hz
              simpa using hz.symm
            rcases ht with rfl | ⟨d, u, rfl, hd⟩
            · rw [if_pos (by simp)] at h
              exact bad _ (hrw _ h) (Or.inl rfl)
            · obtain ⟨m, hm⟩ : ∃ m, n = m + 1 := ⟨n - 1, by have := hv4.2 d u rfl; omega⟩
              subst hm
              split at h
              · exact bad _ (hrw _ h) (Or.inr ⟨_, _, fromSlash_cons _ _, by rw [winSep_from]; exact hd⟩)
              · simp only [List.take_succ_cons, List.cons_append] at h
                exact bad _ (hrw _ h) (Or.inr ⟨_, _, fromSlash_cons _ _, by rw [winSep_from]; exact hd⟩)
        have nq : prefixFold (a :: b :: l) [92, 63, 63] = false := by
          cases hh : prefixFold (a :: b :: l) [92, 63, 63] with
          | false => rfl
          | true =>
            exfalso
            obtain ⟨a', t, e⟩ := prefixFold_q hh
            simp only [List.cons.injEq] at e
            rw [e.2.1] at sb
            revert sb; decide
        simp only [Bool.or_eq_false_iff] at notdev
        have hv : volLen (a :: b :: l) = 2 + uncScan 0 l := by
          unfold volLen
          rw [if_neg (by simpa using hb), if_neg (by simp [sa]), notdev.1.1, notdev.1.2, notdev.2, nq]
          simp only [Bool.false_eq_true, if_false, Bool.or_self]
          rw [if_pos (by simp [sb])]
          simp
        unfold cleanWin at h
        simp only [hsome, Option.map_some, sb, Option.getD_some, List.head?_cons, sa, and_self, and_true] at h
        rw [hv, Nat.add_comm 2] at h
        simp only [if_pos (show 1 < uncScan 0 l + 2 by omega)] at h
        simp only [List.drop_succ_cons, List.take_succ_cons] at h
        rcases uncScan_cases l with ⟨e, hn⟩ | ⟨x, c, z, d, t, rfl, nx, nz, hc, hd, e⟩
        · -- no third separator
          exfalso
          rw [e, if_pos (by simp), fromSlash_sep sa, fromSlash_sep sb] at h
          have h' : fromSlash l = server ++ bslash :: (share ++ bslash :: q) := by simpa using h
          have ns : ∀ {x : Str}, NoSep x → bslash ∉ fromSlash x := by
            intro x hx; rw [fromSlash_id hx.slash]; exact hx.back
          rcases hn with hn | ⟨x, c, z, rfl, nx, nz, hc⟩
          · exact ns hn (by rw [h']; simp)
          · rw [fromSlash_append, fromSlash_sep hc] at h'
            obtain ⟨_, e2⟩ := cut_at (ns nx) hs.2 h'
            exact ns nz (by rw [e2]; simp)
        · rw [e] at h
          have e1 : (x ++ c :: (z ++ d :: t)).drop (x.length + 1 + z.length) = d :: t := by
            rw [show x ++ c :: (z ++ d :: t) = (x ++ c :: z) ++ d :: t by simp]
            exact List.drop_left' (by simp; omega)
          have e2 : (x ++ c :: (z ++ d :: t)).take (x.length + 1 + z.length) = x ++ c :: z := by
            rw [show x ++ c :: (z ++ d :: t) = (x ++ c :: z) ++ d :: t by simp]
            exact List.take_left' (by simp; omega)
          rw [e1, e2, if_neg (by simp), List.cons_append, List.cons_append, fromSlash_sep sa, fromSlash_sep sb, fromSlash_append, fromSlash_append,
            fromSlash_sep hc, clean_rest t hd, fromSlash_id nx.slash, fromSlash_id nz.slash] at h
          have h' : x ++ bslash :: (z ++ bslash :: fromSlash (joinSlash (lexWalk [] (splitSlash (toSlash t))))) = server ++ bslash :: (share ++ bslash :: q) := by simpa using h
          obtain ⟨_, e3⟩ := cut_at nx.back hs.2 h'
          obtain ⟨_, e4⟩ := cut_at nz.back h2 e3
          exact ⟨_, walk_allWin allWin_nil t, e4.symm⟩

end Savior
