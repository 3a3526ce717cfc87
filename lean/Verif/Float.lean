import Verif.Spec.Float
/-!
# float64 rounding
-/

namespace Savior

theorem Rounds.mono {rnd : Rat → Rat} (h : Rounds rnd) {x y : Rat} (hx : x.abs ≤ 2 ^ 63) (hy : y.abs ≤ 2 ^ 63) (hxy : x ≤ y) : rnd x ≤ rnd y := by
  by_cases he : x = y
  · rw [he]; exact Rat.le_refl
  · have h1 := (h x hx).2 _ (h y hy).1
    have h2 := (h y hy).2 _ (h x hx).1
    generalize rnd x = a at *
    generalize rnd y = b at *
    clear hx hy h
    unfold Rat.abs at h1 h2
    grind

theorem Rounds.exact {rnd : Rat → Rat} (h : Rounds rnd) {x : Rat} (hx : x.abs ≤ 2 ^ 63) (hf : IsF64 x) : rnd x = x := by
  have h1 := (h x hx).2 _ hf
  generalize rnd x = a at *
  clear hx h
  unfold Rat.abs at h1
  grind

/-- Small integers are float64 values. -/
theorem isF64_int {n : Int} (h : n.natAbs < 2 ^ 53) : IsF64 n := ⟨n, 1074, h, by decide, rfl⟩

theorem isF64_two53 : IsF64 ((2 ^ 53 : Int) : Rat) := by
  exact ⟨2 ^ 52, 1075, by decide, by decide, by decide +kernel⟩

theorem isF64_zero : IsF64 0 := isF64_int (n := 0) (by decide)
theorem isF64_one : IsF64 1 := isF64_int (n := 1) (by decide)

/-- The largest one below 1. -/
theorem isF64_below : IsF64 (1 - 1 / 2 ^ 53) := by
  refine ⟨2 ^ 53 - 1, 1021, by decide, by decide, ?_⟩
  have : (2 : Rat) ^ 1074 = 2 ^ 53 * 2 ^ 1021 := by decide +kernel
  rw [this]
  have e : ((2 ^ 53 - 1 : Int) : Rat) = (1 - 1 / 2 ^ 53) * 2 ^ 53 := by decide +kernel
  rw [e, Rat.mul_assoc]

theorem abs_int {n : Int} (h0 : 0 ≤ n) (h : n ≤ 2 ^ 63) : (n : Rat).abs ≤ 2 ^ 63 := by
  rw [Rat.abs_of_nonneg (by exact_mod_cast h0)]
  have := Rat.intCast_le_intCast.mpr h
  exact this

theorem rat_div_mono {a b c : Rat} (h : a ≤ b) (hc : 0 < c) : a / c ≤ b / c := by
  rw [Rat.div_def, Rat.div_def]
  exact Rat.mul_le_mul_of_nonneg_right h (Rat.le_of_lt (Rat.inv_pos.mpr hc))

theorem rat_div_self {c : Rat} (hc : 0 < c) : c / c = 1 := by
  rw [Rat.div_def]
  exact Rat.mul_inv_cancel _ (by grind)

theorem abs_unit {x : Rat} (h0 : 0 ≤ x) (h1 : x ≤ 1) : x.abs ≤ 2 ^ 63 := by
  rw [Rat.abs_of_nonneg h0]
  grind

section
variable {rnd : Rat → Rat} (h : Rounds rnd)
include h

theorem Rounds.zero : rnd 0 = 0 := h.exact (by decide) isF64_zero
theorem Rounds.one : rnd 1 = 1 := h.exact (by decide) isF64_one

theorem Rounds.pos {n : Int} (h0 : 0 < n) (h1 : n ≤ 2 ^ 63) : 1 ≤ rnd n := by
  rw [← h.one]
  exact h.mono (by decide) (abs_int (by omega) h1) (by exact_mod_cast h0)

theorem Rounds.nonneg {n : Int} (h0 : 0 ≤ n) (h1 : n ≤ 2 ^ 63) : 0 ≤ rnd n := by
  have := h.mono (x := 0) (by decide) (abs_int h0 h1) (by exact_mod_cast h0)
  rw [h.zero] at this
  exact this

theorem Rounds.int_mono {a b : Int} (h0 : 0 ≤ a) (hab : a ≤ b) (hb : b ≤ 2 ^ 63) : rnd a ≤ rnd b :=
  h.mono (abs_int h0 (by omega)) (abs_int (by omega) hb) (by exact_mod_cast hab)

/-- The quotient before it is rounded. -/
theorem Rounds.quot {a b : Int} (h0 : 0 ≤ a) (hab : a ≤ b) (hb0 : 0 < b) (hb : b ≤ 2 ^ 63) : 0 ≤ rnd a / rnd b ∧ rnd a / rnd b ≤ 1 := by
  have hp := h.pos hb0 hb
  have hc : 0 < rnd b := by grind
  refine ⟨?_, ?_⟩
  · have := rat_div_mono (h.nonneg h0 (by omega)) hc
    rwa [Rat.div_def, Rat.zero_mul] at this
  · have := rat_div_mono (h.int_mono h0 hab hb) hc
    rwa [rat_div_self hc] at this

/-- **A fraction is reported as a number between 0 and 1.** -/
theorem toF64_range {p : Int × Int} (hp : Fraction p) (hb : p.2 ≤ 2 ^ 63) : 0 ≤ toF64 rnd p ∧ toF64 rnd p ≤ 1 := by
  obtain ⟨a, b⟩ := h.quot hp.1 hp.2.1 hp.2.2 hb
  have h1 := h.mono (x := 0) (by decide) (abs_unit a b) a
  have h2 := h.mono (y := 1) (abs_unit a b) (by decide) b
  rw [h.zero] at h1
  rw [h.one] at h2
  exact ⟨h1, h2⟩

/-- **Progress that does not go back is reported as such.** -/
theorem toF64_mono {p q : Int × Int} (hp : Fraction p) (hq : Fraction q) (hb : p.2 ≤ 2 ^ 63) (hpq : NotBack p q) : toF64 rnd p ≤ toF64 rnd q := by
  obtain ⟨a, b⟩ := h.quot hp.1 hp.2.1 hp.2.2 hb
  have hb' : q.2 ≤ 2 ^ 63 := by rw [← hpq.1]; exact hb
  obtain ⟨c, d⟩ := h.quot hq.1 hq.2.1 hq.2.2 hb'
  refine h.mono (abs_unit a b) (abs_unit c d) ?_
  rw [hpq.1]
  have := hq.2.1
  have := h.pos hq.2.2 hb'
  exact rat_div_mono (h.int_mono hp.1 hpq.2 (by omega)) (by grind)

/-- Nothing is 0, everything is 1. -/
theorem toF64_ends {b : Int} (hb0 : 0 < b) (hb : b ≤ 2 ^ 63) : toF64 rnd (0, b) = 0 ∧ toF64 rnd (b, b) = 1 := by
  have hp := h.pos hb0 hb
  refine ⟨?_, ?_⟩
  · show rnd (rnd ((0 : Int) : Rat) / rnd b) = 0
    rw [show ((0 : Int) : Rat) = 0 from rfl, h.zero, Rat.div_def, Rat.zero_mul, h.zero]
  · show rnd (rnd b / rnd b) = 1
    rw [rat_div_self (by grind), h.one]

/-- **Up to 2^53 bytes (8 PiB), only everything is reported as 1.** -/
theorem toF64_one {a b : Int} (h0 : 0 ≤ a) (hab : a < b) (hb : b ≤ 2 ^ 53) : toF64 rnd (a, b) < 1 := by
  have ea : rnd a = a := h.exact (abs_int h0 (by omega)) (isF64_int (by omega))
  have eb : rnd b = b := by
    refine h.exact (abs_int (by omega) (by omega)) ?_
    by_cases e : b = 2 ^ 53
    · rw [e]; exact isF64_two53
    · exact isF64_int (by omega)
  obtain ⟨q0, q1⟩ := h.quot (b := b) h0 (by omega) (by omega) (by omega)
  have hq : rnd a / rnd b ≤ 1 - 1 / 2 ^ 53 := by
    rw [ea, eb]
    have hbp : (0 : Rat) < b := by exact_mod_cast (by omega : 0 < b)
    have h1 : (a : Rat) ≤ (1 - 1 / 2 ^ 53) * b := by
      have h2 : (a : Rat) + 1 ≤ b := by exact_mod_cast (by omega : a + 1 ≤ b)
      have h3 : (b : Rat) ≤ ((2 ^ 53 : Int) : Rat) := Rat.intCast_le_intCast.mpr hb
      rw [show ((2 ^ 53 : Int) : Rat) = 9007199254740992 by decide +kernel] at h3
      rw [show (1 - 1 / 2 ^ 53 : Rat) = 1 - 1 / 9007199254740992 by decide +kernel]
      grind
    have := rat_div_mono h1 hbp
    rw [Rat.div_def (_ * _), Rat.mul_assoc, Rat.mul_inv_cancel _ (by grind), Rat.mul_one] at this
    exact this
  have h3 := h.mono (abs_unit q0 q1) (abs_unit (x := 1 - 1 / 2 ^ 53) (by decide +kernel) (by decide +kernel)) hq
  rw [h.exact (abs_unit (x := 1 - 1 / 2 ^ 53) (by decide +kernel) (by decide +kernel)) isF64_below] at h3
  show rnd (rnd a / rnd b) < 1
  grind

omit h in
theorem two_pow_int (e : Nat) : (2 : Rat) ^ e = ((2 ^ e : Int) : Rat) := by
  rw [Rat.intCast_pow]
  rfl

omit h in
theorem int_pow_mono {e f : Nat} (h : e ≤ f) : (2 : Int) ^ e ≤ 2 ^ f := by
  have := Nat.pow_le_pow_right (n := 2) (by decide) h
  exact_mod_cast this

/-- The float64 value nearest to 2^60 - 1 is 2^60. -/
theorem Rounds.two60 : rnd ((2 ^ 60 - 1 : Int) : Rat) = ((2 ^ 60 : Int) : Rat) := by
  have hf : IsF64 ((2 ^ 60 : Int) : Rat) := by
    exact ⟨2 ^ 52, 1082, by decide, by decide, by decide +kernel⟩
  obtain ⟨⟨m, e, h1, h2, h3⟩, h4⟩ := h ((2 ^ 60 - 1 : Int) : Rat) (abs_int (by decide) (by decide))
  have h5 := h4 _ hf
  generalize rnd ((2 ^ 60 - 1 : Int) : Rat) = y at *
  have h6 : ((2 ^ 60 - 2 : Int) : Rat) ≤ y ∧ y ≤ ((2 ^ 60 : Int) : Rat) := by
    clear h1 h2 h3 h4
    have : ((2 ^ 60 - 1 : Int) : Rat) - ((2 ^ 60 : Int) : Rat) = -1 := by decide +kernel
    rw [this] at h5
    unfold Rat.abs at h5
    push_cast at *
    grind
  have hU : (0 : Rat) < 2 ^ 1074 := Rat.pow_pos (by decide)
  have h7 : (2 ^ 60 - 2 : Int) * 2 ^ 1074 ≤ m * 2 ^ e ∧ m * 2 ^ e ≤ (2 ^ 60 : Int) * 2 ^ 1074 := by
    have a := Rat.mul_le_mul_of_nonneg_right h6.1 (Rat.le_of_lt hU)
    have b := Rat.mul_le_mul_of_nonneg_right h6.2 (Rat.le_of_lt hU)
    rw [h3, show (2 : Rat) ^ 1074 = ((2 ^ 1074 : Int) : Rat) from by decide +kernel, two_pow_int e, ← Rat.intCast_mul, ← Rat.intCast_mul] at a b
    exact ⟨Rat.intCast_le_intCast.mp a, Rat.intCast_le_intCast.mp b⟩
  have h8 : m * 2 ^ e = (2 ^ 60 : Int) * 2 ^ 1074 := by
    by_cases he : e < 1081
    · exfalso
      have hm : m ≤ 2 ^ 53 := by omega
      have hp : (2 : Int) ^ e ≤ 2 ^ 1080 := int_pow_mono (by omega)
      have hp0 : (0 : Int) < 2 ^ e := Int.pow_pos (by decide)
      have : m * 2 ^ e ≤ 2 ^ 53 * 2 ^ 1080 := by
        calc m * 2 ^ e ≤ 2 ^ 53 * 2 ^ e := Int.mul_le_mul_of_nonneg_right hm (by omega)
          _ ≤ 2 ^ 53 * 2 ^ 1080 := Int.mul_le_mul_of_nonneg_left hp (by decide)
      have h9 := Int.le_trans h7.1 this
      exact absurd h9 (by decide +kernel)
    · obtain ⟨k, rfl⟩ : ∃ k, e = 1081 + k := ⟨e - 1081, by omega⟩
      rw [Int.pow_add] at h7 ⊢
      have hx : m * (2 ^ 1081 * 2 ^ k) = (m * 2 ^ k) * 2 ^ 1081 := by
        rw [Int.mul_comm (2 ^ 1081), Int.mul_assoc]
      rw [hx] at h7 ⊢
      generalize m * 2 ^ k = j at *
      have e1 : (2 ^ 1081 : Int) = 2 ^ 7 * 2 ^ 1074 := by decide +kernel
      rw [e1] at h7 ⊢
      have hW : (0 : Int) < 2 ^ 1074 := by decide +kernel
      generalize (2 ^ 1074 : Int) = W at *
      rw [← Int.mul_assoc] at h7 ⊢
      have a := Int.le_of_mul_le_mul_right h7.1 hW
      have b := Int.le_of_mul_le_mul_right h7.2 hW
      have c : j * 2 ^ 7 = 2 ^ 60 := by omega
      rw [c]
  have h9 : y * 2 ^ 1074 = ((2 ^ 60 : Int) : Rat) * 2 ^ 1074 := by
    rw [h3, show (2 : Rat) ^ 1074 = ((2 ^ 1074 : Int) : Rat) from by decide +kernel, two_pow_int e, ← Rat.intCast_mul, ← Rat.intCast_mul, h8]
  have := congrArg (· / (2 : Rat) ^ 1074) h9
  simp only [Rat.div_def, Rat.mul_assoc, Rat.mul_inv_cancel _ (show (2 : Rat) ^ 1074 ≠ 0 by grind), Rat.mul_one] at this
  exact this

end

/-- Every property of numbers that some number has is had by a least one. -/
theorem least_of {P : Nat → Prop} (h : ∃ n, P n) : ∃ n, P n ∧ ∀ m, P m → n ≤ m := by
  obtain ⟨n, hn⟩ := h
  induction n using Nat.strongRecOn with
  | _ n ih =>
    by_cases hm : ∃ m, m < n ∧ P m
    · obtain ⟨m, h1, h2⟩ := hm
      exact ih m h1 h2
    · refine ⟨n, hn, fun m hm' => ?_⟩
      by_cases hlt : m < n
      · exact absurd ⟨m, hlt, hm'⟩ hm
      · omega

theorem abs_intCast (n : Int) : (n : Rat).abs = ((n.natAbs : Int) : Rat) := by
  unfold Rat.abs
  split
  · rename_i h
    have : 0 ≤ n := by exact_mod_cast h
    rw [show ((n.natAbs : Int)) = n by omega]
  · rename_i h
    have : ¬ 0 ≤ n := fun h' => h (by exact_mod_cast h')
    rw [show ((n.natAbs : Int)) = -n by omega, Rat.intCast_neg]

theorem abs_scale {x c : Rat} (hc : 0 < c) : x.abs * c = (x * c).abs := by
  unfold Rat.abs
  by_cases h : 0 ≤ x
  · rw [if_pos h, if_pos (Rat.mul_nonneg h (Rat.le_of_lt hc))]
  · have h1 : 0 < -x := by grind
    have h2 := Rat.mul_pos h1 hc
    rw [if_neg h, if_neg (by grind)]
    grind

/-- Every number has a nearest float64 value. -/
theorem nearest_exists (x : Rat) : ∃ y, Nearest x y := by
  obtain ⟨U, hU⟩ : ∃ U : Int, U = 2 ^ 1074 := ⟨_, rfl⟩
  have hU0 : 0 < U := by rw [hU]; decide +kernel
  have hUR : (2 : Rat) ^ 1074 = (U : Rat) := by rw [hU]; decide +kernel
  have hUp : (0 : Rat) < (U : Rat) := by exact_mod_cast hU0
  have hd0 : 0 < (x.den : Int) := by have := x.den_pos; omega
  have hdp : (0 : Rat) < ((x.den : Int) : Rat) := by exact_mod_cast hd0
  -- the numbers `k` such that `k / 2^1074` is a float64 value
  let Fl : Int → Prop := fun k => ∃ (m : Int) (e : Nat), m.natAbs < 2 ^ 53 ∧ e ≤ 2045 ∧ k = m * 2 ^ e
  have hx : x * ((x.den : Int) : Rat) = (x.num : Rat) := by
    have h : (x.num : Rat) / ((x.den : Int) : Rat) = x := by rw [← Rat.divInt_eq_div, Rat.num_divInt_den]
    generalize (x.num : Rat) = n at *
    generalize ((x.den : Int) : Rat) = d at *
    rw [← h, Rat.div_def, Rat.mul_assoc, Rat.inv_mul_cancel _ (by grind), Rat.mul_one]
  have dist : ∀ z k, z * (U : Rat) = (k : Int) → (x - z).abs * ((U : Rat) * ((x.den : Int) : Rat)) = (((x.num * U - k * x.den).natAbs : Int) : Rat) := by
    intro z k hz
    rw [abs_scale (Rat.mul_pos hUp hdp), ← abs_intCast]
    congr 1
    rw [Rat.intCast_sub, Rat.intCast_mul, Rat.intCast_mul, ← hz, ← hx]
    generalize (U : Rat) = u
    generalize ((x.den : Int) : Rat) = d
    grind
  obtain ⟨n, ⟨k, ⟨m, e, h1, h2, h3⟩, h4⟩, h5⟩ := least_of (P := fun n => ∃ k, Fl k ∧ (x.num * U - k * x.den).natAbs = n) ⟨_, 0, ⟨0, 0, by decide, by decide, rfl⟩, rfl⟩
  have hy : (k : Rat) / U * (U : Rat) = (k : Rat) := by
    rw [Rat.div_def, Rat.mul_assoc, Rat.inv_mul_cancel _ (by grind), Rat.mul_one]
  refine ⟨(k : Rat) / U, ⟨m, e, h1, h2, ?_⟩, ?_⟩
  · rw [hUR, hy, h3, Rat.intCast_mul, two_pow_int]
  · rintro z ⟨m', e', h1', h2', h3'⟩
    have hz : z * (U : Rat) = ((m' * 2 ^ e' : Int) : Rat) := by rw [← hUR, h3', Rat.intCast_mul, two_pow_int]
    have hle := h5 _ ⟨m' * 2 ^ e', ⟨m', e', h1', h2', rfl⟩, rfl⟩
    have a := dist _ _ hy
    have b := dist _ _ hz
    rw [h4] at a
    have hab : (x - (k : Rat) / U).abs * ((U : Rat) * ((x.den : Int) : Rat)) ≤ (x - z).abs * ((U : Rat) * ((x.den : Int) : Rat)) := by
      rw [a, b]
      exact Rat.intCast_le_intCast.mpr (by exact_mod_cast hle)
    exact Rat.le_of_mul_le_mul_right hab (Rat.mul_pos hUp hdp)

/-- There are such functions. -/
theorem rounds_exists : ∃ rnd, Rounds rnd := ⟨fun x => Classical.choose (nearest_exists x), fun x _ => Classical.choose_spec (nearest_exists x)⟩

end Savior
