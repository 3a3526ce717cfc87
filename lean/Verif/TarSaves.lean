import Verif.TarLog
import Verif.TarView
/-!
# The checkpoints a tar run saves
-/

namespace Savior

section
variable {K : SinkM} {V : SaveCons} {S : SourceM} {Y : List Byte} {clean : Bool} {T : TarFmt}

/-- Offsets along a path. -/
theorem tarPath_suffix (hT : T.Law) {st : T.St} : ∀ {ms st1 Y1}, TarPath T clean st Y ms st1 Y1 → Y1.length ≤ Y.length := by
  intro ms st1 Y1 h
  induction h with
  | nil => exact Nat.le_refl _
  | file _ h2 _ _ ih =>
    obtain ⟨xs, hx⟩ := nextSpec_le hT _ _ _ _ _ h2
    rw [hx] at ih
    simp at ih ⊢
    omega
  | other _ h2 _ ih =>
    obtain ⟨xs, hx⟩ := nextSpec_le hT _ _ _ _ _ h2
    rw [hx] at ih
    simp at ih ⊢
    omega

theorem tarPath_between (hT : T.Law) {st : T.St} : ∀ {ms st1 Y1}, TarPath T clean st Y ms st1 Y1 → ∀ n, n < ms.length →
    ∃ st2 Y2 h st3 Y3, TarPath T clean st Y (ms.take n) st2 Y2 ∧ nextSpec T clean st2 Y2 = some (some (h, st3, Y3)) ∧
      (h.typ = .reg → Y1.length + T.rem st3 ≤ Y3.length) := by
  intro ms st1 Y1 h
  induction h with
  | nil => intro n hn; simp at hn
  | @file ms st1 Y1 h st2 Y2 h1 h2 h3 h4 ih =>
    intro n hn
    simp at hn
    obtain ⟨xs, hx⟩ := nextSpec_le hT _ _ _ _ _ h2
    by_cases hlt : n < ms.length
    · obtain ⟨a, b, c, d, e, f, g, g'⟩ := ih n hlt
      refine ⟨a, b, c, d, e, ?_, g, fun hr => ?_⟩
      · rw [List.take_append_of_le_length (by omega)]
        exact f
      · have := g' hr
        rw [hx] at this
        simp at this ⊢
        omega
    · have : n = ms.length := by omega
      subst this
      refine ⟨st1, Y1, h, st2, Y2, ?_, h2, fun _ => by simp; omega⟩
      rw [List.take_append_of_le_length (Nat.le_refl _), List.take_length]
      exact h1
  | @other ms st1 Y1 h st2 Y2 h1 h2 h3 ih =>
    intro n hn
    simp at hn
    obtain ⟨xs, hx⟩ := nextSpec_le hT _ _ _ _ _ h2
    by_cases hlt : n < ms.length
    · obtain ⟨a, b, c, d, e, f, g, g'⟩ := ih n hlt
      refine ⟨a, b, c, d, e, ?_, g, fun hr => ?_⟩
      · rw [List.take_append_of_le_length (by omega)]
        exact f
      · have := g' hr
        rw [hx] at this
        simp at this ⊢
        omega
    · have : n = ms.length := by omega
      subst this
      refine ⟨st1, Y1, h, st2, Y2, ?_, h2, fun h => absurd h h3⟩
      rw [List.take_append_of_le_length (Nat.le_refl _), List.take_length]
      exact h1

/-- `c` was taken at stream offset `o`, within the member number `i`. -/
def TarAt (T : TarFmt) (clean : Bool) (Y : List Byte) (Ck : Ckpt → Nat → Prop) (c : ECkpt) (i o : Nat) : Prop :=
  ∃ ms h R z0 st0 e, TarCkAt T clean Y Ck c ms h R z0 st0 o e ∧ TarEntryLike h e ∧ ms.length = i

theorem TarAt.offset {Ck : Ckpt → Nat → Prop} {c : ECkpt} {i o : Nat} (h : TarAt T clean Y Ck c i o) : tarOffset c = o := by
  obtain ⟨ms, h, R, z0, st0, e, a, _⟩ := h
  obtain ⟨im, b, _⟩ := a.data
  simp [tarOffset, b]

theorem TarAt.le (hT : T.Law) {Ck : Ckpt → Nat → Prop} {c1 c2 : ECkpt} {i1 o1 i2 o2 : Nat} (h1 : TarAt T clean Y Ck c1 i1 o1)
    (h2 : TarAt T clean Y Ck c2 i2 o2) (hlt : i1 < i2) : o1 ≤ o2 := by
  obtain ⟨ms1, h1, R1, z1, st1, e1, a1, _, l1⟩ := h1
  obtain ⟨ms2, h2, R2, z2, st2, e2, a2, _, l2⟩ := h2
  obtain ⟨f1, f2, s1, Y1, f3, f4⟩ := a1.file
  obtain ⟨g1, g2, s2, Y2, g3, g4⟩ := a2.file
  obtain ⟨xs, hx⟩ := nextSpec_le hT _ _ _ _ _ g4
  obtain ⟨sa, Ya, h, sb, Yb, k1, k2, k3⟩ := tarPath_between hT g3 i1 (by omega)
  obtain ⟨q1, q2, q3⟩ := tarPath_det f3 k1 (by simp; omega)
  subst q2 q3
  rw [f4] at k2
  simp only [Option.some.injEq, Prod.mk.injEq] at k2
  obtain ⟨q4, q5, q6⟩ := k2
  subst q4 q5 q6
  have := k3 f2
  rw [hx] at this
  simp at this
  have := a1.hi
  have := a2.lo
  omega

/-- Everything known about the saves of a run that started at offset `o0`. -/
structure SavesOK (T : TarFmt) (clean : Bool) (Y : List Byte) (Ck : Ckpt → Nat → Prop) (V : SaveCons) (Qt : Prop) (o0 : Nat) (log : List Ev) : Prop where
  at_ : ∀ s ∈ saves log, ∃ i o, TarAt T clean Y Ck s.1 i o ∧ o0 ≤ o ∧ (Qt → o0 < o ∧ ∃ n u, (V.shouldSave n u).1 = true)
  answer : ∀ s ∈ saves log, ∃ u, (V.save s.1 u).1 = s.2
  sorted : ((saves log).map (·.1)).Pairwise fun c d => tarOffset c ≤ tarOffset d

theorem saves_inv (hT : T.Law) (L : Lawful S Y clean) (V : SaveCons) (Qt : Prop) (o0 : Nat) :
    TarLogInv L T V Qt o0
      (fun ms log => SavesOK T clean Y L.CkFor V Qt o0 log ∧ ∀ s ∈ saves log, ∃ i o, TarAt T clean Y L.CkFor s.1 i o ∧ i < ms.length)
      (fun ms _ _ o log => SavesOK T clean Y L.CkFor V Qt o0 log ∧
        ∀ s ∈ saves log, ∃ i o', TarAt T clean Y L.CkFor s.1 i o' ∧ (i < ms.length ∨ (i = ms.length ∧ o' ≤ o)))
      (SavesOK T clean Y L.CkFor V Qt o0) where
  b_end _ _ h := h.1
  i_end _ _ _ _ _ h := h.1
  i_ev ms h z0 o o' log ev hi ho hp := by
    have hs : saves (log ++ [ev]) = saves log := by
      rw [saves_append]
      cases ev <;> simp [saves, Ev.plain] at hp ⊢
    obtain ⟨⟨a, b, c⟩, d⟩ := hi
    refine ⟨⟨by rw [hs]; exact a, by rw [hs]; exact b, by rw [hs]; exact c⟩, ?_⟩
    rw [hs]
    intro s hm
    obtain ⟨i, o1, e, f⟩ := d s hm
    exact ⟨i, o1, e, f.imp id fun ⟨x, y⟩ => ⟨x, by omega⟩⟩
  dir ms log h hb ht := by
    have hs : ∀ r, saves (log ++ [.mkdir (tarEntryOf h) r]) = saves log := fun r => by simp [saves_append, saves]
    obtain ⟨⟨a, b, c⟩, d⟩ := hb
    refine ⟨⟨⟨by rw [hs]; exact a, by rw [hs]; exact b, by rw [hs]; exact c⟩, ?_⟩, fun x => ⟨by rw [hs]; exact a, by rw [hs]; exact b, by rw [hs]; exact c⟩⟩
    rw [hs]
    intro s hm
    obtain ⟨i, o1, e, f⟩ := d s hm
    exact ⟨i, o1, e, by simp; omega⟩
  link ms log h hb ht := by
    have hs : ∀ r, saves (log ++ [.symlink (tarEntryOf h) h.link r]) = saves log := fun r => by simp [saves_append, saves]
    obtain ⟨⟨a, b, c⟩, d⟩ := hb
    refine ⟨⟨⟨by rw [hs]; exact a, by rw [hs]; exact b, by rw [hs]; exact c⟩, ?_⟩, fun x => ⟨by rw [hs]; exact a, by rw [hs]; exact b, by rw [hs]; exact c⟩⟩
    rw [hs]
    intro s hm
    obtain ⟨i, o1, e, f⟩ := d s hm
    exact ⟨i, o1, e, by simp; omega⟩
  other ms log h hb ht := by
    refine ⟨hb.1, ?_⟩
    intro s hm
    obtain ⟨i, o1, e, f⟩ := hb.2 s hm
    exact ⟨i, o1, e, by simp; omega⟩
  file ms log h z0 st0 hb hf := by
    have hs : ∀ r, saves (log ++ [.openW (tarEntryOf h) r]) = saves log := fun r => by simp [saves_append, saves]
    obtain ⟨⟨a, b, c⟩, d⟩ := hb
    refine ⟨⟨⟨by rw [hs]; exact a, by rw [hs]; exact b, by rw [hs]; exact c⟩, ?_⟩, fun x => ⟨by rw [hs]; exact a, by rw [hs]; exact b, by rw [hs]; exact c⟩⟩
    rw [hs]
    intro s hm
    obtain ⟨i, o1, e, f⟩ := d s hm
    exact ⟨i, o1, e, Or.inl f⟩
  save ms h z0 st0 o log ck R e a hi hck hlike ho0 hqt hans := by
    have hs : saves (log ++ [.save ck a]) = saves log ++ [(ck, a)] := by simp [saves_append, saves]
    obtain ⟨⟨a1, b1, c1⟩, d1⟩ := hi
    have hat : TarAt T clean Y L.CkFor ck ms.length o := ⟨ms, h, R, z0, st0, e, hck, hlike, rfl⟩
    refine ⟨⟨?_, ?_, ?_⟩, ?_⟩
    · rw [hs]
      intro s hm
      rcases List.mem_append.mp hm with hm | hm
      · exact a1 s hm
      · simp at hm; subst hm; exact ⟨_, _, hat, ho0, hqt⟩
    · rw [hs]
      intro s hm
      rcases List.mem_append.mp hm with hm | hm
      · exact b1 s hm
      · simp at hm; subst hm
        obtain ⟨u, hu⟩ := hans
        exact ⟨u, hu.symm⟩
    · rw [hs, List.map_append, List.pairwise_append]
      refine ⟨c1, by simp, ?_⟩
      intro x hx y hy
      simp only [List.map_cons, List.map_nil, List.mem_singleton] at hy
      subst hy
      obtain ⟨s, hsm, rfl⟩ := List.mem_map.mp hx
      obtain ⟨i, o', g1, g2⟩ := d1 s hsm
      rw [g1.offset, hat.offset]
      rcases g2 with g2 | ⟨_, g2⟩
      · have := g1.le hT hat g2
        omega
      · omega
    · rw [hs]
      intro s hm
      rcases List.mem_append.mp hm with hm | hm
      · exact d1 s hm
      · simp at hm; subst hm; exact ⟨_, _, hat, Or.inr ⟨rfl, Nat.le_refl _⟩⟩
  finish ms h z0 st0 log p hi hf := by
    have hs : saves (log ++ [.progress p]) = saves log := by simp [saves_append, saves]
    obtain ⟨⟨a, b, c⟩, d⟩ := hi
    refine ⟨⟨by rw [hs]; exact a, by rw [hs]; exact b, by rw [hs]; exact c⟩, ?_⟩
    rw [hs]
    intro s hm
    obtain ⟨i, o1, e, f⟩ := d s hm
    refine ⟨i, o1, e, ?_⟩
    simp
    omega

theorem TarAt.mono {Ck Ck' : Ckpt → Nat → Prop} (hm : ∀ c o, Ck c o → Ck' c o) {c : ECkpt} {i o : Nat} (h : TarAt T clean Y Ck c i o) :
    TarAt T clean Y Ck' c i o := by
  obtain ⟨ms, h, R, z0, st0, e, a, b⟩ := h
  exact ⟨ms, h, R, z0, st0, e, a.mono hm, b⟩

theorem savesOK_nil (Ck : Ckpt → Nat → Prop) (Qt : Prop) (o0 : Nat) (log : List Ev) (h : saves log = []) : SavesOK T clean Y Ck V Qt o0 log :=
  ⟨by rw [h]; simp, by rw [h]; simp, by rw [h]; simp⟩

/-- Where a run starts. -/
def TarFrom (T : TarFmt) (clean : Bool) (Y : List Byte) (Ck : Ckpt → Nat → Prop) (ck : Option ECkpt) (o0 : Nat) : Prop :=
  (ck = none ∧ o0 = 0) ∨ ∃ c i, ck = some c ∧ TarAt T clean Y Ck c i o0

/-- The saves of one run. -/
theorem tarRun_saves {Ck : Ckpt → Nat → Prop} {F : Nat} (hT : T.Law) (X : TarSrc Y clean Ck F) (pr : Ckpt → Int × Int) (ck : Option ECkpt) (k : K.St) (u : V.St)
    {Qt : Prop} (hq : Qt → X.L.Quiet X.src) {o0 : Nat} (hst : TarFrom T clean Y Ck ck o0) :
    SavesOK T clean Y Ck V Qt o0 (tarRun X T pr K V ck k u).2.2.log := by
  have h := (tarResume_log hT X.L (saves_inv hT X.L V Qt o0) pr X.budget X.good hq k u ck (by
    rcases hst with ⟨a, b⟩ | ⟨c, i, a, b⟩
    · exact Or.inl ⟨by simp [a], b, savesOK_nil _ _ _ _ rfl, by simp [saves]⟩
    · obtain ⟨ms, h, R, z0, st0, e, d1, d2, d3⟩ := b.mono fun c o => (X.family c o).mpr
      exact Or.inr ⟨c, ms, h, R, z0, st0, e, a, d1, d2, savesOK_nil _ _ _ _ rfl, ⟨savesOK_nil _ _ _ _ rfl, by simp [saves]⟩,
        fun _ => savesOK_nil _ _ _ _ rfl⟩)).1
  refine ⟨?_, h.answer, h.sorted⟩
  intro s hs
  obtain ⟨i, o, a, b⟩ := h.at_ s hs
  exact ⟨i, o, a.mono fun c o => (X.family c o).mp, b⟩

/-- A checkpoint saved by a chain of runs. -/
theorem tarSaved_at {Ck : Ckpt → Nat → Prop} {F : Nat} (hT : T.Law) {q : Prop} {n : Nat} {c : ECkpt} (h : TarSaved Y clean Ck F T q n c) :
    ∃ i o, TarAt T clean Y Ck c i o ∧ (q → n ≤ o) := by
  induction h with
  | first X pr K V k u hq hm =>
    obtain ⟨i, o, a, b, d⟩ := (tarRun_saves hT X pr none k u hq (Or.inl ⟨rfl, rfl⟩)).at_ _ hm
    exact ⟨i, o, a, fun h => (d h).1⟩
  | again X pr K V k u hq _ hm ih =>
    obtain ⟨i0, o0, a0, b0⟩ := ih
    obtain ⟨i, o, a, b, d⟩ := (tarRun_saves hT X pr _ k u hq (Or.inr ⟨_, i0, rfl, a0⟩)).at_ _ hm
    exact ⟨i, o, a, fun h => by have := (d h).1; have := b0 h; omega⟩

theorem tarCanStart_from {Ck : Ckpt → Nat → Prop} {F : Nat} (hT : T.Law) {ck : Option ECkpt} (h : TarCanStart Y clean Ck F T ck) :
    ∃ o0, TarFrom T clean Y Ck ck o0 := by
  cases ck with
  | none => exact ⟨0, Or.inl ⟨rfl, rfl⟩⟩
  | some c =>
    obtain ⟨n, hn⟩ := h c rfl
    obtain ⟨i, o, a, _⟩ := tarSaved_at hT hn
    exact ⟨o, Or.inr ⟨c, i, rfl, a⟩⟩

end
end Savior
