/-!
# Specification: throttled callbacks

`throttle thr c ns`: amounts `ns` arrive one after the other, `c` has accumulated before; after which of them does the
callback run? It runs as soon as more than `thr` has accumulated since it last ran.
-/

namespace Savior

def throttle (thr : Nat) : Nat → List Nat → List Bool
  | _, [] => []
  | c, n :: ns => if thr < c + n then true :: throttle thr 0 ns else false :: throttle thr (c + n) ns

theorem throttle_length (thr : Nat) : ∀ (ns : List Nat) (c : Nat), (throttle thr c ns).length = ns.length := by
  intro ns
  induction ns with
  | nil => intro c; rfl
  | cons n ns ih => intro c; simp only [throttle]; split <;> simp [ih]

/-- **Regular**: the amount accumulated over any stretch without a callback is at most `thr`. -/
theorem throttle_gap (thr : Nat) : ∀ (pre mid post : List Nat) (c : Nat),
    (∀ i, pre.length ≤ i → i < pre.length + mid.length → (throttle thr c (pre ++ mid ++ post))[i]? = some false) →
    mid ≠ [] → mid.sum ≤ thr := by
  have base : ∀ (mid post : List Nat) (c : Nat),
      (∀ i, i < mid.length → (throttle thr c (mid ++ post))[i]? = some false) → mid ≠ [] → c + mid.sum ≤ thr := by
    intro mid
    induction mid with
    | nil => intro post c _ h; exact absurd rfl h
    | cons n mid ih =>
      intro post c h _
      have h0 := h 0 (by simp)
      simp only [List.cons_append, throttle] at h0
      by_cases hc : thr < c + n
      · rw [if_pos hc] at h0; simp at h0
      · cases mid with
        | nil => simp; omega
        | cons m mid =>
          have := ih post (c + n) (fun i hi => by
            have := h (i + 1) (by simpa using hi)
            simp only [List.cons_append, throttle] at this
            rw [if_neg hc] at this
            simpa [throttle] using this) (by simp)
          simp only [List.sum_cons] at this ⊢
          omega
  intro pre
  induction pre with
  | nil =>
    intro mid post c h hm
    have := base mid post c (fun i hi => by simpa using h i (by simp) (by simpa using hi)) hm
    omega
  | cons n pre ih =>
    intro mid post c h hm
    by_cases hc : thr < c + n
    · refine ih mid post 0 (fun i h1 h2 => ?_) hm
      have := h (i + 1) (by simpa using h1) (by simp; omega)
      simp only [List.cons_append, throttle] at this
      rw [if_pos hc] at this
      simpa using this
    · refine ih mid post (c + n) (fun i h1 h2 => ?_) hm
      have := h (i + 1) (by simpa using h1) (by simp; omega)
      simp only [List.cons_append, throttle] at this
      rw [if_neg hc] at this
      simpa using this

/-- **Throttled**: if the callback ran after the last amount of `pre` (or `pre` is empty and nothing had accumulated), not
during `mid`, and again after `x`, then more than `thr` arrived in between. -/
theorem throttle_fire (thr : Nat) : ∀ (pre mid : List Nat) (x : Nat) (post : List Nat) (c : Nat),
    (pre = [] → c = 0) →
    (pre ≠ [] → (throttle thr c (pre ++ mid ++ x :: post))[pre.length - 1]? = some true) →
    (∀ i, pre.length ≤ i → i < pre.length + mid.length → (throttle thr c (pre ++ mid ++ x :: post))[i]? = some false) →
    (throttle thr c (pre ++ mid ++ x :: post))[pre.length + mid.length]? = some true →
    thr < mid.sum + x := by
  have base : ∀ (mid : List Nat) (x : Nat) (post : List Nat) (c : Nat),
      (∀ i, i < mid.length → (throttle thr c (mid ++ x :: post))[i]? = some false) →
      (throttle thr c (mid ++ x :: post))[mid.length]? = some true → thr < c + mid.sum + x := by
    intro mid
    induction mid with
    | nil =>
      intro x post c _ h
      simp only [List.nil_append, throttle, List.length_nil] at h
      by_cases hc : thr < c + x
      · simp; omega
      · rw [if_neg hc] at h; simp at h
    | cons n mid ih =>
      intro x post c h h2
      have h0 := h 0 (by simp)
      simp only [List.cons_append, throttle] at h0 h2
      by_cases hc : thr < c + n
      · rw [if_pos hc] at h0; simp at h0
      · rw [if_neg hc] at h2
        have := ih x post (c + n) (fun i hi => by
          have := h (i + 1) (by simpa using hi)
          simp only [List.cons_append, throttle] at this
          rw [if_neg hc] at this
          simpa using this) (by simpa using h2)
        simp only [List.sum_cons]
        omega
  intro pre
  induction pre with
  | nil =>
    intro mid x post c hc _ h h2
    have := base mid x post c (fun i hi => by simpa using h i (by simp) (by simpa using hi)) (by simpa using h2)
    have := hc rfl
    omega
  | cons n pre ih =>
    intro mid x post c _ hf h h2
    by_cases hc : thr < c + n
    · refine ih mid x post 0 (fun _ => rfl) (fun hp => ?_) (fun i h1 h2 => ?_) ?_
      · have := hf (by simp)
        simp only [List.cons_append, throttle] at this
        rw [if_pos hc] at this
        obtain ⟨k, hk⟩ : ∃ k, pre.length = k + 1 := ⟨pre.length - 1, by have := List.length_pos_iff.mpr hp; omega⟩
        simp [hk] at this ⊢
        exact this
      · have := h (i + 1) (by simpa using h1) (by simp; omega)
        simp only [List.cons_append, throttle] at this
        rw [if_pos hc] at this
        simpa using this
      · simp only [List.cons_append, throttle] at h2
        rw [if_pos hc] at h2
        have e : (n :: pre).length + mid.length = pre.length + mid.length + 1 := by simp; omega
        rw [e] at h2
        simpa using h2
    · refine ih mid x post (c + n) (fun hp => ?_) (fun hp => ?_) (fun i h1 h2 => ?_) ?_
      · subst hp
        have := hf (by simp)
        simp only [List.cons_append, throttle] at this
        rw [if_neg hc] at this
        simp at this
      · have := hf (by simp)
        simp only [List.cons_append, throttle] at this
        rw [if_neg hc] at this
        obtain ⟨k, hk⟩ : ∃ k, pre.length = k + 1 := ⟨pre.length - 1, by have := List.length_pos_iff.mpr hp; omega⟩
        simp [hk] at this ⊢
        exact this
      · have := h (i + 1) (by simpa using h1) (by simp; omega)
        simp only [List.cons_append, throttle] at this
        rw [if_neg hc] at this
        simpa using this
      · simp only [List.cons_append, throttle] at h2
        rw [if_neg hc] at h2
        have e : (n :: pre).length + mid.length = pre.length + mid.length + 1 := by simp; omega
        rw [e] at h2
        simpa using h2

example : throttle 10 0 [4, 5, 3, 11, 2] = [false, false, true, true, false] := by decide

end Savior
