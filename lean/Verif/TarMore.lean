import Verif.TarSaves
/-!
# Stopped tar runs, healthy tar runs
-/

namespace Savior

section
variable {K : SinkM} {V : SaveCons} {S : SourceM} {Y : List Byte} {clean : Bool} {T : TarFmt}

/-- No save was answered with "stop". -/
def NoStop (log : List Ev) : Prop := ∀ c, (c, .ok .stop) ∉ saves log

/-- The saves and the stop flag fit: either no save was answered with "stop", or exactly the last one. -/
def StopFits (b : Bool) (log : List Ev) : Prop :=
  if b then ∃ l c, saves log = l ++ [(c, .ok .stop)] ∧ ∀ c, (c, .ok .stop) ∉ l else NoStop log

theorem stopFits_say {b : Bool} {log : List Ev} {ev : Ev} (h : StopFits b log) (he : ∀ c a, ev ≠ .save c a) : StopFits b (log ++ [ev]) := by
  have hs : saves (log ++ [ev]) = saves log := by
    rw [saves_append]
    cases ev <;> simp [saves] at he ⊢
  unfold StopFits NoStop at *
  rw [hs]; exact h

theorem stop_inv (L : Lawful S Y clean) (pr : Ckpt → Int × Int) (Qt : Prop) (o0 : Nat) :
    TarInv L T pr V K Qt o0 (fun _ _ w => NoStop w.log) (fun _ _ _ _ _ _ w => StopFits w.stopErr w.log ∧ w.ck.entry ≠ none)
      (fun w => NoStop w.log ∨ StopFits true w.log)
      (fun w => StopFits true w.log ∧ w.ck.entry = none ∧ w.ck.srcCk = none ∧ w.ck.data = none) where
  p_end w h := Or.inr h.1
  b_index _ _ _ _ h := h
  b_end _ _ _ h := Or.inl h
  dir ms R w h hb ht _ := by
    have : ∀ ev, (∀ c a, ev ≠ .save c a) → NoStop (w.log ++ [ev]) := fun ev he => stopFits_say (b := false) hb he
    exact ⟨fun _ => this _ (by simp), fun _ => Or.inl (this _ (by simp))⟩
  link ms R w h hb ht _ := by
    have : ∀ ev, (∀ c a, ev ≠ .save c a) → NoStop (w.log ++ [ev]) := fun ev he => stopFits_say (b := false) hb he
    exact ⟨fun _ => this _ (by simp), fun _ => Or.inl (this _ (by simp))⟩
  other ms R w h hb ht _ := hb
  file ms R w h z0 st0 hb hse hf := by
    have : ∀ ev, (∀ c a, ev ≠ .save c a) → NoStop (w.log ++ [ev]) := fun ev he => stopFits_say (b := false) hb he
    refine ⟨fun _ => ⟨?_, by simp [XW.say, XW.withEntry]⟩, fun _ => Or.inl (this _ (by simp))⟩
    show StopFits w.stopErr _
    rw [hse]
    exact this _ (by simp)
  i_entry _ _ _ _ _ _ _ h := h.2
  save ms h R z0 st0 o c sck hf hi him _ _ hck hst hse hix := by
    obtain ⟨h1, h2⟩ := hi
    rw [hse] at h1
    have hno : NoStop c.xw.log := h1
    have hx : ∀ ck (a : Except Err Action), saves (c.xw.log ++ [.save ck a]) = saves c.xw.log ++ [(ck, a)] := fun ck a => by simp [saves_append, saves]
    unfold tarOnSave
    rw [him.cur]
    simp only [Bool.true_eq_false, if_false]
    split
    · rw [hse]; exact ⟨h1, h2⟩
    · split
      · rename_i x hx2
        refine ⟨?_, h2⟩
        show StopFits c.xw.stopErr (c.xw.log ++ [.save _ _])
        rw [hse]
        intro ck hm
        rw [hx] at hm
        rcases List.mem_append.mp hm with hm | hm
        · exact hno _ hm
        · simp only [List.mem_singleton, Prod.mk.injEq] at hm
          rw [hx2] at hm
          exact absurd hm.2 (by simp)
      · rename_i hx2
        refine ⟨?_, h2⟩
        show StopFits true (c.xw.log ++ [.save _ _])
        unfold StopFits
        rw [if_pos rfl]
        rw [hx, hx2]
        exact ⟨_, _, rfl, hno⟩
      · rename_i hx2
        refine ⟨?_, h2⟩
        show StopFits c.xw.stopErr (c.xw.log ++ [.save _ _])
        rw [hse]
        intro ck hm
        rw [hx] at hm
        rcases List.mem_append.mp hm with hm | hm
        · exact hno _ hm
        · simp only [List.mem_singleton, Prod.mk.injEq] at hm
          rw [hx2] at hm
          exact absurd hm.2 (by simp)
  write ms h R z0 st0 o w bs hf hi _ _ _ _ := by
    refine ⟨fun _ => ⟨stopFits_say hi.1 (by simp), ?_⟩, fun _ => ?_⟩
    · show w.ck.entry.map _ ≠ none
      simpa using hi.2
    · have := stopFits_say (ev := .write bs (K.write bs w.sink).1.1 (K.write bs w.sink).1.2.2) hi.1 (by simp)
      show NoStop (w.log ++ [_]) ∨ StopFits true (w.log ++ [_])
      cases hb : w.stopErr <;> rw [hb] at this
      · exact Or.inl this
      · exact Or.inr this
  should _ _ _ _ _ _ _ _ h := h
  emit ms h R z0 st0 o w p hi := ⟨stopFits_say hi.1 (by simp), hi.2⟩
  i_end ms h R z0 st0 o w hi := by
    have := hi.1
    cases hb : w.stopErr <;> rw [hb] at this
    · exact Or.inl this
    · exact Or.inr this
  i_stop ms h R z0 st0 o w p hi _ hs := by
    have := hi.1
    rw [hs] at this
    exact ⟨stopFits_say this (by simp), rfl, rfl, rfl⟩
  finish ms h R z0 st0 w p e hf hi _ _ hs _ := by
    have := hi.1
    rw [hs] at this
    exact stopFits_say (b := false) this (by simp)

/-- Where a run leaves its source: fit for use, unless the source's own `Resume` failed. -/
theorem tarRun_live {Ck : Ckpt → Nat → Prop} {F : Nat} (hT : T.Law) (X : TarSrc Y clean Ck F) (pr : Ckpt → Int × Int) (ck : Option ECkpt) (k : K.St) (u : V.St)
    {o0 : Nat} (hst : TarFrom T clean Y Ck ck o0) :
    X.L.Live (tarRun X T pr K V ck k u).2.1 ∨ ∃ x, X.S.resume (ck.bind (·.srcCk)) X.src = (.error x, (tarRun X T pr K V ck k u).2.1) := by
  have hn : NoStop [] := by intro c h; cases h
  have hs : TarStart X.L T F V k u (fun _ _ w => NoStop w.log) (fun _ _ _ _ _ _ w => StopFits w.stopErr w.log ∧ w.ck.entry ≠ none)
      (fun w => NoStop w.log ∨ StopFits true w.log) ck o0 := by
    rcases hst with ⟨a, b⟩ | ⟨c, i, a, b⟩
    · subst a b; exact .fresh (by simp) hn
    · obtain ⟨ms, h, R, z0, st0, e, d1, d2, d3⟩ := b.mono fun c o => (X.family c o).mpr
      subst a
      refine .again d1 (Or.inl hn) (fun _ => ⟨stopFits_say (b := false) hn (by simp), ?_⟩) (fun _ => Or.inl (stopFits_say (b := false) hn (by simp)))
      show c.entry ≠ none
      rw [d1.entry]; simp
  obtain ⟨r, s', w', g1, _, _, g3⟩ := tarResume_rule (Qt := False) hT X.L (stop_inv X.L pr False o0) X.budget X.good (by simp) hs
  have g1' : tarRun X T pr K V ck k u = (r, s', w') := g1
  rw [g1']
  rcases g3 with g3 | ⟨sck, x, g3, ⟨rfl, g4⟩ | ⟨c, rfl, rfl⟩⟩
  · exact Or.inl g3
  · rcases hst with ⟨rfl, _⟩ | ⟨c, i, rfl, ms, h, R, z0, st0, e, d1, _⟩
    · exact Or.inr ⟨x, g3⟩
    · obtain ⟨im, hd, _⟩ := d1.data
      exact absurd hd (g4 c rfl _ _)
  · exact Or.inr ⟨x, g3⟩

theorem tarRun_stop {Ck : Ckpt → Nat → Prop} {F : Nat} (hT : T.Law) (X : TarSrc Y clean Ck F) (pr : Ckpt → Int × Int) (ck : Option ECkpt) (k : K.St) (u : V.St)
    {o0 : Nat} (hst : TarFrom T clean Y Ck ck o0) :
    (∀ res, (tarRun X T pr K V ck k u).1 = .ok res → NoStop (tarRun X T pr K V ck k u).2.2.log) ∧
    ((tarRun X T pr K V ck k u).1 = .error .stop → StopFits true (tarRun X T pr K V ck k u).2.2.log ∧
      (tarRun X T pr K V ck k u).2.2.ck.entry = none ∧ (tarRun X T pr K V ck k u).2.2.ck.srcCk = none ∧ (tarRun X T pr K V ck k u).2.2.ck.data = none) ∧
    (NoStop (tarRun X T pr K V ck k u).2.2.log ∨ StopFits true (tarRun X T pr K V ck k u).2.2.log) := by
  have hn : NoStop [] := by intro c h; cases h
  have hs : TarStart X.L T F V k u (fun _ _ w => NoStop w.log) (fun _ _ _ _ _ _ w => StopFits w.stopErr w.log ∧ w.ck.entry ≠ none)
      (fun w => NoStop w.log ∨ StopFits true w.log) ck o0 := by
    rcases hst with ⟨a, b⟩ | ⟨c, i, a, b⟩
    · subst a b; exact .fresh (by simp) hn
    · obtain ⟨ms, h, R, z0, st0, e, d1, d2, d3⟩ := b.mono fun c o => (X.family c o).mpr
      subst a
      refine .again d1 (Or.inl hn) (fun _ => ⟨stopFits_say (b := false) hn (by simp), ?_⟩) (fun _ => Or.inl (stopFits_say (b := false) hn (by simp)))
      show c.entry ≠ none
      rw [d1.entry]; simp
  obtain ⟨r, s', w', g1, g2, _⟩ := tarResume_rule (Qt := False) hT X.L (stop_inv X.L pr False o0) X.budget X.good (by simp) hs
  have g1' : tarRun X T pr K V ck k u = (r, s', w') := g1
  rw [g1']
  rcases g2 with ⟨x, a, a', b⟩ | ⟨res, a, ms, b, c⟩
  · subst a
    refine ⟨by simp, fun h => ?_, a'⟩
    simp only [Except.error.injEq] at h
    exact (b h).2
  · subst a
    exact ⟨fun _ _ => c, by simp, Or.inl c⟩

/-! ## Healthy runs -/

theorem good_inv (L : Lawful S Y clean) (pr : Ckpt → Int × Int) (G : GoodSink K) (Qt : Prop) (o0 : Nat) :
    TarInv L T pr V K Qt o0 (fun _ _ w => G.OK w.sink) (fun _ _ _ _ _ _ w => G.Open w.sink ∧ w.ck.entry ≠ none)
      (fun w => G.OK w.sink) (fun w => G.OK w.sink) where
  p_end _ h := h
  b_index _ _ _ _ h := h
  b_end _ _ _ h := h
  dir ms R w h hb ht _ := ⟨fun _ => (G.mkdir _ _ hb).2, fun _ => (G.mkdir _ _ hb).2⟩
  link ms R w h hb ht _ := ⟨fun _ => (G.symlink _ _ _ hb).2, fun _ => (G.symlink _ _ _ hb).2⟩
  other _ _ _ _ h _ _ := h
  file ms R w h z0 st0 hb _ _ := ⟨fun _ => ⟨(G.getWriter (tarEntryOf h) _ hb (by simp [tarEntryOf])).2, by simp [XW.say, XW.withEntry]⟩,
    fun hh => absurd (G.getWriter (tarEntryOf h) _ hb (by simp [tarEntryOf])).1 hh⟩
  i_entry _ _ _ _ _ _ _ h := h.2
  save ms h R z0 st0 o c sck hf hi him _ _ hck hst hse hix := by
    unfold tarOnSave
    rw [him.cur]
    simp only [Bool.true_eq_false, if_false]
    split
    · exact hi
    · split <;> exact hi
  write ms h R z0 st0 o w bs hf hi _ _ _ _ := by
    refine ⟨fun _ => ⟨(G.write bs _ hi.1).2.2, ?_⟩, fun hh => absurd (G.write bs _ hi.1).1 hh⟩
    show w.ck.entry.map _ ≠ none
    simpa using hi.2
  should _ _ _ _ _ _ _ _ h := h
  emit _ _ _ _ _ _ _ _ h := h
  i_end _ _ _ _ _ _ w h := G.close _ (G.open_ok _ h.1)
  i_stop _ _ _ _ _ _ w _ h _ _ := G.close _ (G.open_ok _ h.1)
  finish _ _ _ _ _ w _ _ _ h _ _ _ _ := G.close _ (G.open_ok _ h.1)

theorem good_fine (pr : Ckpt → Int × Int) (G : GoodSink K) (hV : V.Good) (hX : T.Exact) :
    TarFine T clean Y pr V K (fun _ _ w => G.OK w.sink) (fun _ _ _ _ _ _ w => G.Open w.sink ∧ w.ck.entry ≠ none) where
  save ms h R z0 st0 o c sck _ him := by
    unfold tarOnSave
    rw [him.cur]
    simp only [Bool.true_eq_false, if_false]
    obtain ⟨im, h1, _⟩ := hX c.rd
    simp only [h1]
    obtain ⟨a, ha⟩ := hV { c.xw.ck with srcCk := some sck, data := some ⟨some c.res, some ⟨c.roff, im⟩⟩, progress := pr sck } c.xw.cons
    rw [ha]
    cases a <;> rfl
  dir _ _ w h hb _ _ := (G.mkdir _ _ hb).1
  link _ _ w h hb _ _ := (G.symlink _ _ _ hb).1
  file _ _ w h _ _ hb _ := (G.getWriter (tarEntryOf h) _ hb (by simp [tarEntryOf])).1
  write _ _ _ _ _ _ w bs _ hi _ _ _ _ := (G.write bs _ hi.1).1

theorem tarRun_good_open {Ck : Ckpt → Nat → Prop} {F : Nat} (hT : T.Law) (hX : T.Exact) {ms : Members} (hY : TarHas T true Y ms) (X : TarSrc Y true Ck F)
    (hh : X.Healthy) (hF : Y.length + 3 ≤ F) (pr : Ckpt → Int × Int) (G : GoodSink K) (hV : V.Good) (ck : Option ECkpt) (k : K.St) (hk : G.OK k) (u : V.St)
    {o0 : Nat} (hst : TarFrom T true Y Ck ck o0) (hw : ∀ c e, ck = some c → c.entry = some e → (K.getWriter e k).1 = none ∧ G.Open (K.getWriter e k).2) :
    ((∃ res, (tarRun X T pr K V ck k u).1 = .ok res) ∨ (tarRun X T pr K V ck k u).1 = .error .stop) ∧ G.OK (tarRun X T pr K V ck k u).2.2.sink := by
  have hs : TarStart X.L T F V k u (fun _ _ w => G.OK w.sink) (fun _ _ _ _ _ _ w => G.Open w.sink ∧ w.ck.entry ≠ none) (fun w => G.OK w.sink) ck o0 := by
    rcases hst with ⟨a, b⟩ | ⟨c, i, a, b⟩
    · subst a b; exact .fresh (by simp) hk
    · obtain ⟨ms, h, R, z0, st0, e, d1, d2, d3⟩ := b.mono fun c o => (X.family c o).mpr
      subst a
      have := hw c e rfl d1.entry
      refine .again d1 hk (fun _ => ⟨this.2, ?_⟩) (fun hh => absurd this.1 hh)
      show c.entry ≠ none
      rw [d1.entry]; simp
  obtain ⟨r, s', w', g1, g2, g3, _⟩ := tarResume_rule (Qt := False) hT X.L (good_inv X.L pr G False o0) X.budget X.good (by simp) hs
  have g1' : tarRun X T pr K V ck k u = (r, s', w') := g1
  rw [g1']
  have g3' := g3 (good_fine pr G hV hX) hh.1 rfl (tarHas_not_broken hY) hh.2 hX
    (fun c e hc he => (hw c e hc he).1) hF
  rcases g2 with ⟨x, a, b, _⟩ | ⟨res, a, ms, b, c⟩
  · refine ⟨Or.inr ?_, b⟩
    show r = _
    rw [a, g3' x a]
  · exact ⟨Or.inl ⟨res, a⟩, c⟩

theorem tarRun_good {Ck : Ckpt → Nat → Prop} {F : Nat} (hT : T.Law) (hX : T.Exact) {ms : Members} (hY : TarHas T true Y ms) (X : TarSrc Y true Ck F)
    (hh : X.Healthy) (hF : Y.length + 3 ≤ F) (pr : Ckpt → Int × Int) (G : GoodSink K) (hV : V.Good) (ck : Option ECkpt) (k : K.St) (hk : G.OK k) (u : V.St)
    {o0 : Nat} (hst : TarFrom T true Y Ck ck o0) (hw : ∀ c e, ck = some c → c.entry = some e → 0 ≤ e.woff) :
    ((∃ res, (tarRun X T pr K V ck k u).1 = .ok res) ∨ (tarRun X T pr K V ck k u).1 = .error .stop) ∧ G.OK (tarRun X T pr K V ck k u).2.2.sink :=
  tarRun_good_open hT hX hY X hh hF pr G hV ck k hk u hst fun c e hc he => G.getWriter e k hk (hw c e hc he)

end
end Savior
