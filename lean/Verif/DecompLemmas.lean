import Verif.Decomp
/-!
# Decompressor lemmas
-/

namespace Savior

theorem feedAll_fin (D : Decomp) (st : D.St) (bs : List Byte) (h : D.fin st = true) :
    D.feedAll st bs = ([], st, false) := by
  cases bs <;> simp [Decomp.feedAll, h]

theorem decode_fin (D : Decomp) (st : D.St) (z : List Byte) (c : Bool) (h : D.fin st = true) :
    D.decode st z c = ([], true) := by
  cases z <;> simp [Decomp.decode, h]

theorem decode_append (D : Decomp) (c : Bool) (z : List Byte) (bs : List Byte) : ∀ (st : D.St),
    D.decode st (bs ++ z) c =
      if (D.feedAll st bs).2.2 then ((D.feedAll st bs).1, false)
      else ((D.feedAll st bs).1 ++ (D.decode (D.feedAll st bs).2.1 z c).1, (D.decode (D.feedAll st bs).2.1 z c).2) := by
  induction bs with
  | nil => intro st; simp [Decomp.feedAll]
  | cons b bs ih =>
    intro st
    by_cases hf : D.fin st = true
    · rw [feedAll_fin D st _ hf, decode_fin D st _ c hf]
      simp [decode_fin D st z c hf]
    · simp only [List.cons_append, Decomp.decode, Decomp.feedAll, hf]
      cases hfd : D.feed st b with
      | none => simp
      | some p =>
        obtain ⟨st', out⟩ := p
        simp only [ih st']
        by_cases hc : (D.feedAll st' bs).2.2 = true <;> simp [hc, List.append_assoc]

theorem feedAll_append (D : Decomp) (b2 : List Byte) (b1 : List Byte) : ∀ (st : D.St),
    (D.feedAll st b1).2.2 = false →
    D.feedAll st (b1 ++ b2) =
      ((D.feedAll st b1).1 ++ (D.feedAll (D.feedAll st b1).2.1 b2).1, (D.feedAll (D.feedAll st b1).2.1 b2).2) := by
  induction b1 with
  | nil => intro st _; simp [Decomp.feedAll]
  | cons b bs ih =>
    intro st h
    by_cases hf : D.fin st = true
    · rw [feedAll_fin D st _ hf, feedAll_fin D st _ hf]
      simp [feedAll_fin D st b2 hf]
    · simp only [List.cons_append, Decomp.feedAll, hf] at h ⊢
      cases hfd : D.feed st b with
      | none => simp [hfd] at h
      | some p =>
        obtain ⟨st', out⟩ := p
        simp only [hfd] at h ⊢
        rw [ih st' h]
        simp [List.append_assoc]

theorem feedAll_header {D : Decomp} (hD : D.Law) (bs : List Byte) : ∀ (st : D.St),
    D.inHeader (D.feedAll st bs).2.1 = true → D.inHeader st = true ∧ (D.feedAll st bs).1 = [] := by
  induction bs with
  | nil => intro st h; exact ⟨h, rfl⟩
  | cons b bs ih =>
    intro st h
    by_cases hf : D.fin st = true
    · rw [feedAll_fin D st _ hf] at h ⊢
      exact ⟨h, rfl⟩
    · simp only [Decomp.feedAll, hf] at h ⊢
      cases hfd : D.feed st b with
      | none => simp only [hfd] at h ⊢; exact ⟨h, rfl⟩
      | some p =>
        obtain ⟨st', out⟩ := p
        simp only [hfd] at h ⊢
        obtain ⟨h1, h2⟩ := ih st' h
        have h3 := hD.header_back st b st' out hfd h1
        refine ⟨h3, ?_⟩
        rw [hD.header_out st b st' out h3 hfd, h2]; rfl

/-- The decompressor's request, answered by a lawful source: the same alternatives as a read. -/
theorem ask_spec {I : SourceM} {Z : List Byte} {cz : Bool} (L : Lawful I Z cz) (D : Decomp)
    (hB : (∀ st, D.ask st ≠ 0) ∨ LawfulByte L) (st : D.St) (src : I.St) (ri : Nat) (ck : Option Ckpt)
    (h : L.At src ri) :
    ∃ bs e src' ck' fired, askInner D I st src ck = ((bs, e), src', (ck', fired)) ∧
      ((fired = true ∧ ∃ k, ck' = some k ∧ L.CkFor k ri) ∨ (fired = false ∧ ck' = ck)) ∧
      (L.Quiet src → fired = false ∧ L.Quiet src') ∧
      bs = (Z.drop ri).take bs.length ∧ L.Live src' ∧
      (D.ask st = 0 ∨ L.plain → e = none → bs ≠ []) ∧
      ((e = none ∧ L.At src' (ri + bs.length) ∧ L.rank src' < L.rank src) ∨
       (e = some .eof ∧ ri + bs.length = Z.length ∧ cz = true) ∨
       (∃ x, e = some x ∧ x ≠ .eof ∧ x ≠ .panic ∧ x ≠ .diverge ∧ x ≠ .readyToSave ∧
          (L.nice → cz = false ∧ ri + bs.length = Z.length))) := by
  unfold askInner
  cases hk : D.ask st with
  | zero =>
    have hB' : LawfulByte L := by
      rcases hB with h | h
      · exact absurd hk (h st)
      · exact h
    obtain ⟨b, e, s', em, h1, h2, h3, h4, h5⟩ := hB'.readByte_spec srCb (ck, false) h
    simp only [h1]
    have hle := L.at_le h
    cases em with
    | none =>
      simp only [deliver]
      refine ⟨_, e, s', ck, false, rfl, Or.inr ⟨rfl, rfl⟩, fun hq => ⟨rfl, (h3 hq).2⟩, ?_, h4, ?_, ?_⟩
      · rcases h5 with ⟨e1, e2, _⟩ | ⟨e1, _⟩ | ⟨x, e1, _⟩
        · subst e1
          simp only [if_true]
          cases hz : Z.drop ri with
          | nil => simp [hz] at e2
          | cons a l => simp [hz] at e2; simp [e2]
        · subst e1; simp
        · subst e1; simp
      · intro _ he; subst he; simp
      · rcases h5 with ⟨e1, e2, e3, e4⟩ | ⟨e1, e2, e3, e4⟩ | ⟨x, e1, e2, e3, e4, e5, e6⟩
        · subst e1; exact Or.inl ⟨rfl, e3, e4⟩
        · subst e1; exact Or.inr (Or.inl ⟨rfl, by simpa using e3, e4⟩)
        · subst e1; exact Or.inr (Or.inr ⟨x, rfl, e2, e3, e4, e5, by simpa using e6⟩)
    | some k =>
      simp only [deliver, srCb]
      refine ⟨_, e, s', some k, true, rfl, Or.inl ⟨rfl, k, rfl, h2 k rfl⟩, 
        fun hq => by have := (h3 hq).1; simp at this, ?_, h4, ?_, ?_⟩
      · rcases h5 with ⟨e1, e2, _⟩ | ⟨e1, _⟩ | ⟨x, e1, _⟩
        · subst e1
          simp only [if_true]
          cases hz : Z.drop ri with
          | nil => simp [hz] at e2
          | cons a l => simp [hz] at e2; simp [e2]
        · subst e1; simp
        · subst e1; simp
      · intro _ he; subst he; simp
      · rcases h5 with ⟨e1, e2, e3, e4⟩ | ⟨e1, e2, e3, e4⟩ | ⟨x, e1, e2, e3, e4, e5, e6⟩
        · subst e1; exact Or.inl ⟨rfl, e3, e4⟩
        · subst e1; exact Or.inr (Or.inl ⟨rfl, by simpa using e3, e4⟩)
        · subst e1; exact Or.inr (Or.inr ⟨x, rfl, e2, e3, e4, e5, by simpa using e6⟩)
  | succ k =>
    obtain ⟨bs, e, s', em, h1, h2, h3, _, h5, h6, h7⟩ := L.read_spec srCb (k + 1) (ck, false) h (by omega)
    simp only [h1]
    have hcases : ((e = none ∧ L.At s' (ri + bs.length) ∧ L.rank s' < L.rank src) ∨
       (e = some .eof ∧ ri + bs.length = Z.length ∧ cz = true) ∨
       (∃ x, e = some x ∧ x ≠ .eof ∧ x ≠ .panic ∧ x ≠ .diverge ∧ x ≠ .readyToSave ∧
          (L.nice → cz = false ∧ ri + bs.length = Z.length))) := by
      rcases h7 with h | ⟨a, b, c, d, _⟩ | ⟨ck, x, _, hx, _⟩ | ⟨x, a, b, c, d, f, g⟩
      · exact Or.inl h
      · exact Or.inr (Or.inl ⟨a, c, d⟩)
      · simp [srCb] at hx
      · exact Or.inr (Or.inr ⟨x, a, b, c, d, f, fun hn => ⟨(g hn).1, (g hn).2.1⟩⟩)
    have hne : (k + 1 = 0 ∨ L.plain) → e = none → bs ≠ [] := by
      intro hp he
      have := (L.plain_read (hp.resolve_left (by omega)) srCb (k + 1) (ck, false) h (by omega)
        (by rw [h1]; exact he)).1
      rw [h1] at this
      exact this
    cases em with
    | none =>
      exact ⟨bs, e, s', ck, false, rfl, Or.inr ⟨rfl, rfl⟩, fun hq => ⟨rfl, (h3 hq).2⟩, h5, h6, hne, hcases⟩
    | some k =>
      exact ⟨bs, e, s', some k, true, rfl, Or.inl ⟨rfl, k, rfl, h2 k rfl⟩,
        fun hq => by have := (h3 hq).1; simp at this, h5, h6, hne, hcases⟩

end Savior
