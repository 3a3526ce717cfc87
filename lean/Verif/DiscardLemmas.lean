import Verif.Source
/-!
# DiscardByRead over a lawful source
-/

namespace Savior

/-- General behaviour of `discard`: it never skips too much; success means exactly `delta` bytes were skipped; failure
is explained by the end of the stream, by the environment, or by the save consumer. `P` is any property of the
consumer's state that deliveries preserve. -/
theorem discard_spec {S : SourceM} {Y : List Byte} {clean : Bool} (L : Lawful S Y clean) {C : Type} (cb : Callback C)
    (P : C → Prop) (hP : ∀ ck c, P c → P (cb ck c).1) :
    ∀ (fuel : Nat) (delta : Nat) (s : S.St) (o : Nat) (c : C), L.At s o → L.rank s < fuel → P c →
    ∃ r s' c', discard S cb fuel delta s c = (r, s', c') ∧ P c' ∧ L.Live s' ∧ (L.Quiet s → L.Quiet s' ∧ c' = c) ∧
      ((r = none ∧ L.At s' (o + delta)) ∨
       (∃ e k, r = some (.wrapped e) ∧ e ≠ .panic ∧ e ≠ .diverge ∧ k ≤ delta ∧ o + k ≤ Y.length ∧ L.At s' (o + k) ∧ k + o = Y.length ∧
          clean = true ∧ e = .eof ∧ (L.lazy → k < delta)) ∨
       (∃ e ck c1, r = some (.wrapped e) ∧ (cb ck c1).2 = some e) ∨
       (∃ e, r = some (.wrapped e) ∧ e ≠ .eof ∧ e ≠ .panic ∧ e ≠ .diverge ∧
          (L.nice → clean = false ∧ (L.lazy → Y.length < o + delta)))) := by
  intro fuel
  induction fuel with
  | zero => intro delta s o c _ h; omega
  | succ f ih =>
    intro delta s o c hat hr hp
    unfold discard
    by_cases hd : (delta : Int) > 0
    · rw [if_pos hd]
      have hn : 0 < (min (delta : Int) 4096).toNat := by omega
      obtain ⟨bs, e, s', em, h1, h2, h3, h4, h5, h6, h7⟩ := L.read_spec cb (min (delta : Int) 4096).toNat c hat hn
      have hPc : P (deliver cb em c) := by
        cases em with
        | none => exact hp
        | some ck => exact hP ck c hp
      have hbl : bs.length ≤ delta := by omega
      have hol : o + bs.length ≤ Y.length := by
        have := congrArg List.length h5
        have := L.at_le hat
        simp only [List.length_take, List.length_drop] at *
        omega
      have hq1 : L.Quiet s → L.Quiet s' ∧ deliver cb em c = c := by
        intro hq
        obtain ⟨a, b⟩ := h3 hq
        subst a
        exact ⟨b, rfl⟩
      simp only [h1]
      cases e with
      | none =>
        simp only []
        rcases h7 with ⟨_, hat', hrk⟩ | ⟨h, _⟩ | ⟨_, _, _, _, h, _⟩ | ⟨_, h, _⟩
        · obtain ⟨r, s2, c2, g1, g2, g3, g4, g5⟩ := ih (delta - bs.length) s' (o + bs.length) _ hat' (by omega) hPc
          rw [show (delta : Int) - (bs.length : Int) = ((delta - bs.length : Nat) : Int) from by omega]
          refine ⟨r, s2, c2, g1, g2, g3, ?_, ?_⟩
          · intro hq
            obtain ⟨a, b⟩ := hq1 hq
            obtain ⟨a', b'⟩ := g4 a
            exact ⟨a', b'.trans b⟩
          · rcases g5 with ⟨g6, g7⟩ | ⟨e, k, g6, g7, g8, g9, g10, g11, g12, g13, g14, g15⟩ | h | ⟨e, g6, g7, g8, g9, g10⟩
            · refine Or.inl ⟨g6, ?_⟩
              rw [show o + delta = o + bs.length + (delta - bs.length) from by omega]
              exact g7
            · refine Or.inr (Or.inl ⟨e, bs.length + k, g6, g7, g8, by omega, by omega, ?_, by omega, g13, g14, ?_⟩)
              · rw [← Nat.add_assoc]; exact g11
              · intro hl; have := g15 hl; omega
            · exact Or.inr (Or.inr (Or.inl h))
            · refine Or.inr (Or.inr (Or.inr ⟨e, g6, g7, g8, g9, fun hn => ⟨(g10 hn).1, fun hl => ?_⟩⟩))
              have := (g10 hn).2 hl; omega
        · cases h
        · cases h
        · cases h
      | some x =>
        simp only []
        refine ⟨_, s', _, rfl, hPc, h6, hq1, ?_⟩
        rcases h7 with ⟨h, _⟩ | ⟨h, g1, g2, g3, g4⟩ | ⟨ck, x', g1, g2, g3, g4, g5⟩ | ⟨x', g1, g2, g3, g4, g5, g6⟩
        · cases h
        · simp at h; subst h
          refine Or.inr (Or.inl ⟨.eof, bs.length, rfl, by simp, by simp, hbl, hol, g1, by omega, g3, rfl, ?_⟩)
          intro hl
          rw [g4 hl]
          simp
          omega
        · simp at g3; subst g3
          exact Or.inr (Or.inr (Or.inl ⟨x, ck, c, rfl, g2⟩))
        · simp at g1; subst g1
          refine Or.inr (Or.inr (Or.inr ⟨x, rfl, g2, g3, g4, fun hn => ⟨(g6 hn).1, fun hl => ?_⟩⟩))
          have h8 := (g6 hn).2.1
          have h9 := (g6 hn).2.2 hl
          rw [h9] at h8
          simp at h8
          omega
    · rw [if_neg hd]
      have : delta = 0 := by omega
      subst this
      exact ⟨none, s, c, rfl, hp, L.at_live hat, fun hq => ⟨hq, rfl⟩, Or.inl ⟨rfl, by simpa using hat⟩⟩

/-- Skipping does not make a save request. -/
theorem discard_keeps_quiet {S : SourceM} {Y : List Byte} {clean : Bool} (L : Lawful S Y clean) {C : Type} (cb : Callback C) :
    ∀ (fuel : Nat) (delta : Int) (s : S.St) (o : Nat) (c : C), L.At s o → L.Quiet s → L.Quiet (discard S cb fuel delta s c).2.1 := by
  intro fuel
  induction fuel with
  | zero => intro delta s o c _ hq; unfold discard; split <;> exact hq
  | succ f ih =>
    intro delta s o c hat hq
    unfold discard
    by_cases hd : delta > 0
    · rw [if_pos hd]
      obtain ⟨bs, e, s', em, h1, _, h3, _, _, _, h7⟩ := L.read_spec cb (min delta 4096).toNat c hat (by omega)
      simp only [h1]
      cases e with
      | some x => exact (h3 hq).2
      | none =>
        simp only
        rcases h7 with ⟨_, hat', _⟩ | ⟨h, _⟩ | ⟨_, _, _, _, h, _⟩ | ⟨_, h, _⟩
        · exact ih _ _ _ _ hat' (h3 hq).2
        · cases h
        · cases h
        · cases h
    · rw [if_neg hd]; exact hq

/-- Skipping anything in a plain source leaves no save request pending. -/
theorem discard_plain {S : SourceM} {Y : List Byte} {clean : Bool} (L : Lawful S Y clean) (hp : L.plain) {C : Type} (cb : Callback C)
    (fuel : Nat) (delta : Nat) (s : S.St) (o : Nat) (c : C) (hat : L.At s o) (hd : 0 < delta) (h : (discard S cb fuel delta s c).1 = none) :
    L.Quiet (discard S cb fuel delta s c).2.1 := by
  cases fuel with
  | zero =>
    unfold discard at h
    rw [if_pos (by omega)] at h
    cases h
  | succ f =>
    have hn : 0 < (min (delta : Int) 4096).toNat := by omega
    have hpr := L.plain_read hp cb (min (delta : Int) 4096).toNat c hat hn
    obtain ⟨bs, e, s', em, h1, _, _, _, _, _, h7⟩ := L.read_spec cb (min (delta : Int) 4096).toNat c hat hn
    unfold discard at h ⊢
    rw [if_pos (by omega)] at h ⊢
    simp only [h1] at h hpr ⊢
    cases e with
    | some x => cases h
    | none =>
      simp only at h ⊢
      rcases h7 with ⟨_, hat', _⟩ | ⟨h, _⟩ | ⟨_, _, _, _, h, _⟩ | ⟨_, h, _⟩
      · exact discard_keeps_quiet L cb f _ s' _ _ hat' (hpr rfl).2
      · cases h
      · cases h
      · cases h

end Savior
