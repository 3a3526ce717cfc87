import Verif.TarRun
/-!
# Stop/resume correctness of the tar extractor
-/

namespace Savior

section
variable {K : SinkM} {V : SaveCons} {S : SourceM} {Y : List Byte} {clean : Bool} {T : TarFmt}

theorem tarIdeal_snoc (M : SinkLaw K) (ms : Members) (m : THdr × List Byte) (v : M.W) :
    tarIdeal M (ms ++ [m]) v = tarPut M (tarIdeal M ms v) m := by simp [tarIdeal]

theorem tarListed_snoc (M : SinkLaw K) (ms : Members) (h : THdr) (bs : List Byte) :
    tarListed M (ms ++ [(h, bs)]) = tarListed M ms ++ (if h.typ = .reg then [tarEntryAt M h bs.length] else []) := by
  unfold tarListed
  by_cases hr : h.typ = .reg <;> simp [hr]

theorem tarEntryAt_zero (M : SinkLaw K) (h : THdr) : tarEntryAt M h 0 = tarEntryOf h := by
  unfold tarEntryAt tarEntryOf
  simp

/-- The sink with the first `n` bytes of a file extracted, `v` being what it was before. -/
def tarFileView (M : SinkLaw K) (Y : List Byte) (v : M.W) (h : THdr) (z0 n : Nat) : M.W :=
  M.write ((Y.drop z0).take n) (M.open_ (tarEntryOf h) v)

/-- Between members: the sink is as described by the members so far. -/
def TarB (M : SinkLaw K) (v0 : M.W) (ms : Members) (R : List Entry) (w : XW K V) : Prop :=
  M.view w.sink = tarIdeal M ms v0 ∧ R = tarListed M ms

/-- Within a file. -/
structure TarI (M : SinkLaw K) (T : TarFmt) (clean : Bool) (Y : List Byte) (Ck : Ckpt → Nat → Prop) (v0 : M.W)
    (ms : Members) (h : THdr) (R : List Entry) (z0 : Nat) (st0 : T.St) (o : Nat) (w : XW K V) : Prop where
  entry : w.ck.entry = some (tarEntryAt M h (o - z0))
  view : M.view w.sink = tarFileView M Y (tarIdeal M ms v0) h z0 (o - z0)
  ok : M.openOK (tarEntryOf h) (tarIdeal M ms v0)
  listed : R = tarListed M ms
  len : o ≤ Y.length
  lo : z0 ≤ o
  saved : w.stopErr = true → ∃ ck os, lastSave w.log = some ck ∧ os ≤ o ∧
    TarCkAt T clean Y Ck ck ms h R z0 st0 os (tarEntryAt M h (os - z0))

/-- A checkpoint from which extraction into a sink that looks like `v` may be resumed. -/
def TarResumable (M : SinkLaw K) (T : TarFmt) (clean : Bool) (Y : List Byte) (Ck : Ckpt → Nat → Prop) (v0 : M.W) (ck : ECkpt) (v : M.W) : Prop :=
  ∃ ms h z0 st0 os o, os ≤ o ∧ o ≤ Y.length ∧ TarCkAt T clean Y Ck ck ms h (tarListed M ms) z0 st0 os (tarEntryAt M h (os - z0)) ∧
    M.detach v = M.detach (tarFileView M Y (tarIdeal M ms v0) h z0 (o - z0)) ∧ M.openOK (tarEntryOf h) (tarIdeal M ms v0)

theorem tarFileView_counting (M : SinkLaw K) (v : M.W) (h : THdr) (z0 n : Nat) :
    M.counting (tarFileView M Y v h z0 n) = M.counts (tarEntryOf h) := by
  unfold tarFileView
  rw [M.write_counting, M.open_counting]

theorem tarOpen_again (M : SinkLaw K) {v : M.W} {h : THdr} {z0 n m : Nat} (hnm : n ≤ m) (hlen : z0 + m ≤ Y.length)
    (hok : M.openOK (tarEntryOf h) v) :
    M.open_ (tarEntryAt M h n) (tarFileView M Y v h z0 m) = tarFileView M Y v h z0 n := by
  unfold tarFileView
  by_cases hc : M.counts (tarEntryOf h) = true
  · have hsplit : (Y.drop z0).take m = (Y.drop z0).take n ++ ((Y.drop z0).take m).drop n := by
      conv => lhs; rw [← List.take_append_drop n ((Y.drop z0).take m)]
      rw [List.take_take, Nat.min_eq_left hnm]
    have := M.reopen (tarEntryOf h) v ((Y.drop z0).take n) (((Y.drop z0).take m).drop n) hc rfl hok
    rw [← hsplit] at this
    have hl : ((Y.drop z0).take n).length = n := by simp; omega
    rw [hl] at this
    unfold tarEntryAt
    rw [if_pos hc]
    exact this
  · have hc' : M.counts (tarEntryOf h) = false := by simpa using hc
    have he : tarEntryAt M h n = tarEntryOf h := by
      unfold tarEntryAt
      rw [if_neg hc]
      rfl
    rw [he, (M.ignored _ v _ hc' rfl).1, (M.ignored _ v _ hc' rfl).1, (M.ignored _ v [] hc' rfl).2]

/-- The stop/resume invariant is carried through a run. -/
theorem tarView_inv (M : SinkLaw K) (v0 : M.W) (L : Lawful S Y clean) (pr : Ckpt → Int × Int) (Qt : Prop) (o0 : Nat) :
    TarInv L T pr V K Qt o0 (TarB M v0) (TarI M T clean Y L.CkFor v0) (fun _ => True)
      (fun w => ∃ ck, lastSave w.log = some ck ∧ TarResumable M T clean Y L.CkFor v0 ck (M.view w.sink)) where
  p_end _ _ := trivial
  b_index _ _ _ _ h := h
  b_end _ _ _ _ := trivial
  dir ms R w h hb ht _ := by
    refine ⟨fun hok => ⟨?_, ?_⟩, fun _ => trivial⟩
    · show M.view (K.mkdir (tarEntryOf h) w.sink).2 = _
      rw [M.mkdir_ok _ _ hok, hb.1, tarIdeal_snoc]
      simp [tarPut, ht]
    · rw [tarListed_snoc]; simp [ht, hb.2]
  link ms R w h hb ht _ := by
    refine ⟨fun hok => ⟨?_, ?_⟩, fun _ => trivial⟩
    · show M.view (K.symlink (tarEntryOf h) h.link w.sink).2 = _
      rw [M.symlink_ok _ _ _ hok, hb.1, tarIdeal_snoc]
      simp [tarPut, ht]
    · rw [tarListed_snoc]; simp [ht, hb.2]
  other ms R w h hb ht _ := by
    refine ⟨?_, ?_⟩
    · rw [hb.1, tarIdeal_snoc]; simp [tarPut, ht]
    · rw [tarListed_snoc]; simp [ht, hb.2]
  file ms R w h z0 st0 hb hse hf := by
    refine ⟨fun hok => ?_, fun _ => trivial⟩
    obtain ⟨a, b⟩ := M.getWriter_ok _ _ hok
    rw [hb.1] at a b
    refine ⟨?_, ?_, a, hb.2, hf.1, Nat.le_refl _, ?_⟩
    · rw [Nat.sub_self, tarEntryAt_zero]; rfl
    · rw [Nat.sub_self]
      show M.view (K.getWriter (tarEntryOf h) w.sink).2 = _
      rw [b]
      simp [tarFileView, M.write_nil]
    · intro hs
      have : w.stopErr = true := hs
      rw [hse] at this; cases this
  i_entry _ _ _ _ _ _ _ h := by rw [h.entry]; simp
  save ms h R z0 st0 o c sck hf hi him _ _ hck hst hse hix := by
    unfold tarOnSave
    rw [him.cur]
    simp only [Bool.true_eq_false, if_false]
    split
    · exact hi
    · rename_i im him2
      generalize hck2 : ({ c.xw.ck with srcCk := some sck, data := some ⟨some c.res, some ⟨c.roff, im⟩⟩, progress := pr sck } : ECkpt) = ck
      have hat : TarCkAt T clean Y L.CkFor ck ms h R z0 st0 o (tarEntryAt M h (o - z0)) := by
        subst hck2
        refine ⟨hf, him.start, him.stop, ⟨im, ?_, ?_⟩, ⟨sck, rfl, hck⟩, hi.entry, hix, ?_⟩
        · show some (TarState.mk (some c.res) (some ⟨c.roff, im⟩)) = _
          rw [him.res, him.roff]
        · rw [← him.rd]; exact him2
        · simp [tarEntryAt, tarEntryOf, hf.2.1]
      have hent : ck.entry = some (tarEntryAt M h (o - z0)) := by subst hck2; exact hi.entry
      split
      · exact ⟨hent, hi.view, hi.ok, hi.listed, hi.len, hi.lo, fun hh => by
          have : c.xw.stopErr = true := hh
          rw [hse] at this; cases this⟩
      · refine ⟨hent, hi.view, hi.ok, hi.listed, hi.len, hi.lo, fun _ => ⟨ck, o, ?_, Nat.le_refl _, hat⟩⟩
        show lastSave (c.xw.log ++ [.save ck _]) = _
        rw [lastSave_save]
      · exact ⟨hent, hi.view, hi.ok, hi.listed, hi.len, hi.lo, fun hh => by
          have : c.xw.stopErr = true := hh
          rw [hse] at this; cases this⟩
  write ms h R z0 st0 o w bs hf hi hbs hlen hstop hlo := by
    refine ⟨fun hok => ?_, fun _ => trivial⟩
    have hk : (K.write bs w.sink).1.2.2 = none := hok
    obtain ⟨h1, h2, h3⟩ := M.write_ok bs w.sink hk
    rw [hi.view, tarFileView_counting] at h2
    have hsub : o + bs.length - z0 = (o - z0) + bs.length := by omega
    refine ⟨?_, ?_, hi.ok, hi.listed, hlen, by omega, ?_⟩
    · show w.ck.entry.map _ = _
      rw [hi.entry, h2, hsub]
      simp only [Option.map_some, tarEntryAt]
      split <;> simp
    · show M.view (K.write bs w.sink).2 = _
      rw [h3, hi.view, hsub]
      unfold tarFileView
      rw [← M.write_append]
      congr 1
      rw [List.take_add, List.drop_drop, show z0 + (o - z0) = o from by omega, ← hbs]
    · intro hs
      obtain ⟨ck, os, a, b, c⟩ := hi.saved hs
      refine ⟨ck, os, ?_, by omega, c⟩
      show lastSave (w.log ++ [_]) = _
      rw [lastSave_say _ _ (by simp)]; exact a
  should _ _ _ _ _ _ _ _ h := ⟨h.entry, h.view, h.ok, h.listed, h.len, h.lo, h.saved⟩
  emit ms h R z0 st0 o w p hi := by
    refine ⟨hi.entry, hi.view, hi.ok, hi.listed, hi.len, hi.lo, fun hs => ?_⟩
    obtain ⟨ck, os, a, b, c⟩ := hi.saved hs
    refine ⟨ck, os, ?_, b, c⟩
    show lastSave (w.log ++ [_]) = _
    rw [lastSave_say _ _ (by simp)]; exact a
  i_end _ _ _ _ _ _ _ _ := trivial
  i_stop ms h R z0 st0 o w p hi _ hs := by
    obtain ⟨ck, os, a, b, c⟩ := hi.saved hs
    refine ⟨ck, ?_, ms, h, z0, st0, os, o, b, hi.len, ?_, ?_, hi.ok⟩
    · show lastSave (w.log ++ [_]) = _
      rw [lastSave_say _ _ (by simp)]; exact a
    · rw [← hi.listed]; exact c
    · show M.detach (M.view (K.closeWriter w.sink)) = _
      rw [M.close_view, hi.view]
  finish ms h R z0 st0 w p e hf hi hlen _ _ he := by
    have hsub : z0 + T.rem st0 - z0 = T.rem st0 := by omega
    have hl : ((Y.drop z0).take (T.rem st0)).length = T.rem st0 := by simp; omega
    refine ⟨?_, ?_⟩
    · show M.view (K.closeWriter w.sink) = _
      rw [M.close_view, hi.view, tarIdeal_snoc, hsub]
      simp [tarPut, hf.2.1, tarFileView]
    · rw [tarListed_snoc, hl, hi.listed]
      have := hi.entry
      rw [he, hsub] at this
      simp only [Option.some.injEq] at this
      rw [this]; simp [hf.2.1]

theorem TarCkAt.mono {Ck Ck' : Ckpt → Nat → Prop} (hm : ∀ c o, Ck c o → Ck' c o) {c : ECkpt} {ms : Members} {h : THdr} {R : List Entry} {z0 : Nat}
    {st0 : T.St} {o : Nat} {e : Entry} (a : TarCkAt T clean Y Ck c ms h R z0 st0 o e) : TarCkAt T clean Y Ck' c ms h R z0 st0 o e := by
  obtain ⟨sck, b, c'⟩ := a.src
  exact ⟨a.file, a.lo, a.hi, a.data, ⟨sck, b, hm _ _ c'⟩, a.entry, a.index, a.kind⟩

theorem TarResumable.mono {M : SinkLaw K} {v0 : M.W} {Ck Ck' : Ckpt → Nat → Prop} (hm : ∀ c o, Ck c o → Ck' c o) {c : ECkpt} {v : M.W}
    (a : TarResumable M T clean Y Ck v0 c v) : TarResumable M T clean Y Ck' v0 c v := by
  obtain ⟨ms, h, z0, st0, os, o, b1, b2, b3, b4⟩ := a
  exact ⟨ms, h, z0, st0, os, o, b1, b2, b3.mono hm, b4⟩

/-- One run, started from nothing or from a checkpoint that fits the sink. -/
theorem tarRun_ok {Ck : Ckpt → Nat → Prop} {F : Nat} (hT : T.Law) (M : SinkLaw K) (v0 : M.W) (X : TarSrc Y clean Ck F) (pr : Ckpt → Int × Int)
    (ck : Option ECkpt) (k : K.St) (u : V.St) (hnone : ck = none → M.view k = v0)
    (hsome : ∀ c, ck = some c → TarResumable M T clean Y Ck v0 c (M.view k)) :
    (∀ res, (tarRun X T pr K V ck k u).1 = .ok res → ∃ ms, TarHas T clean Y ms ∧
      M.view (tarRun X T pr K V ck k u).2.2.sink = tarIdeal M ms v0 ∧ res = tarListed M ms) ∧
    ((tarRun X T pr K V ck k u).1 = .error .stop → ∃ c, lastSave (tarRun X T pr K V ck k u).2.2.log = some c ∧
      TarResumable M T clean Y Ck v0 c (M.view (tarRun X T pr K V ck k u).2.2.sink)) := by
  have hst : ∃ o0, TarStart X.L T F V k u (TarB M v0) (TarI M T clean Y X.L.CkFor v0) (fun _ => True) ck o0 := by
    cases ck with
    | none => exact ⟨0, .fresh (by simp) ⟨hnone rfl, rfl⟩⟩
    | some c =>
      obtain ⟨ms, h, z0, st0, os, o, b1, b2, b3, b4, b5⟩ := (hsome c rfl).mono fun c o => (X.family c o).mpr
      refine ⟨os, .again b3 trivial (fun hok => ?_) (fun _ => trivial)⟩
      obtain ⟨_, g⟩ := M.getWriter_ok _ _ hok
      refine ⟨b3.entry, ?_, b5, rfl, by omega, b3.lo, ?_⟩
      · show M.view (K.getWriter _ k).2 = _
        rw [g, ← M.open_detach, b4, M.open_detach]
        have := b3.lo
        exact tarOpen_again M (by omega) (by omega) b5
      · intro hs
        have : (tarWorld (K := K) (V := V) c k u).stopErr = true := hs
        cases this
  obtain ⟨o0, hst⟩ := hst
  obtain ⟨r, s', w', g1, g2, _⟩ := tarResume_rule (Qt := False) hT X.L (tarView_inv M v0 X.L pr False o0) X.budget X.good (by simp) hst
  have g1' : tarRun X T pr K V ck k u = (r, s', w') := g1
  rw [g1']
  rcases g2 with ⟨x, a, _, b⟩ | ⟨res, a, ms, b, c⟩
  · subst a
    refine ⟨by simp, fun h => ?_⟩
    simp only [Except.error.injEq] at h
    obtain ⟨_, ck, c1, c2⟩ := b h
    exact ⟨ck, c1, c2.mono fun c o => (X.family c o).mp⟩
  · subst a
    refine ⟨?_, by simp⟩
    intro res' h
    cases h
    exact ⟨ms, b, c.1, c.2⟩

/-- What a chain of stopped runs leaves behind. -/
theorem tarStops_ok {Ck : Ckpt → Nat → Prop} {F : Nat} (hT : T.Law) (M : SinkLaw K) {k0 : K.St} {ck : Option ECkpt} {k : K.St}
    (h : TarStops Y clean Ck F T K none k0 ck k) : (ck = none → M.view k = M.view k0) ∧
      ∀ c, ck = some c → TarResumable M T clean Y Ck (M.view k0) c (M.view k) := by
  induction h with
  | refl => exact ⟨fun _ => rfl, by simp⟩
  | step X pr V u hprev h2 h3 h4 ih =>
    obtain ⟨i1, i2⟩ := ih
    refine ⟨by simp, ?_⟩
    intro c hc
    obtain ⟨c', a, b⟩ := (tarRun_ok hT M (M.view k0) X pr _ _ u i1 i2).2 h2
    rw [h3] at a
    cases a
    cases hc
    rcases h4 with h4 | h4
    · subst h4; exact b
    · subst h4
      obtain ⟨ms, h, z0, st0, os, o, b1, b2, b3, b4⟩ := b
      exact ⟨ms, h, z0, st0, os, o, b1, b2, b3, by rw [M.reborn_view]; exact b4⟩

end
end Savior
