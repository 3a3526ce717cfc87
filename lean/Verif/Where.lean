import Verif.TarSaves
import Verif.ZipAlign
import Verif.Spec.Where
/-!
# Tar checkpoints and the place they were taken at
-/

namespace Savior

section
variable {K : SinkM} {V : SaveCons} {S : SourceM} {Y : List Byte} {clean : Bool} {T : TarFmt}

theorem tarEntryOf_recorded (h : THdr) : tarEntryOf h = h.recorded := by
  unfold tarEntryOf THdr.recorded
  cases h.typ <;> simp

/-- A checkpoint of a run into a sink that counts exactly. -/
def WhereCk (ct : Str → Bool) (T : TarFmt) (clean : Bool) (Y : List Byte) (Ck : Ckpt → Nat → Prop) (c : ECkpt) : Prop :=
  ∃ ms h z0 st0 o, TarCkAt T clean Y Ck c ms h (writtenFiles ct ms) z0 st0 o (h.after ct (o - z0))

def WhereLog (ct : Str → Bool) (T : TarFmt) (clean : Bool) (Y : List Byte) (Ck : Ckpt → Nat → Prop) (log : List Ev) : Prop :=
  ∀ s ∈ saves log, WhereCk ct T clean Y Ck s.1

theorem whereLog_plain {ct : Str → Bool} {Ck : Ckpt → Nat → Prop} {log : List Ev} {ev : Ev} (h : WhereLog ct T clean Y Ck log) (hev : ∀ c a, ev ≠ .save c a) :
    WhereLog ct T clean Y Ck (log ++ [ev]) := by
  unfold WhereLog
  rw [saves_append]
  cases ev with
  | save c a => exact absurd rfl (hev c a)
  | _ => simpa [saves] using (show ∀ a b, (a, b) ∈ saves log → WhereCk ct T clean Y Ck a from fun a b hm => h (a, b) hm)

theorem where_inv {ct : Str → Bool} (L : Lawful S Y clean) (pr : Ckpt → Int × Int) (o0 : Nat) (hK : Counts K ct) :
    TarInv L T pr V K False o0 (fun ms R w => WhereLog ct T clean Y L.CkFor w.log ∧ R = writtenFiles ct ms)
      (fun ms h R z0 _ o w => WhereLog ct T clean Y L.CkFor w.log ∧ R = writtenFiles ct ms ∧ z0 ≤ o ∧ hK.on w.sink = ct h.name ∧ w.ck.entry = some (h.after ct (o - z0)))
      (fun w => WhereLog ct T clean Y L.CkFor w.log) (fun w => WhereLog ct T clean Y L.CkFor w.log) where
  p_end _ h := h
  b_index _ _ _ _ h := h
  b_end _ _ _ h := h.1
  dir ms R w h hb ht _ := by
    refine ⟨fun _ => ⟨whereLog_plain hb.1 (by simp), ?_⟩, fun _ => whereLog_plain hb.1 (by simp)⟩
    rw [hb.2]; simp [writtenFiles, ht]
  link ms R w h hb ht _ := by
    refine ⟨fun _ => ⟨whereLog_plain hb.1 (by simp), ?_⟩, fun _ => whereLog_plain hb.1 (by simp)⟩
    rw [hb.2]; simp [writtenFiles, ht]
  other ms R w h hb ht _ := ⟨hb.1, by rw [hb.2]; simp [writtenFiles, ht]⟩
  file ms R w h z0 st0 hb _ hf := by
    refine ⟨fun hok => ⟨whereLog_plain hb.1 (by simp), hb.2, Nat.le_refl _, hK.getWriter _ _ hok, ?_⟩, fun _ => whereLog_plain hb.1 (by simp)⟩
    show some (tarEntryOf h) = _
    rw [Nat.sub_self, tarEntryOf_recorded, THdr.after]; simp [countedOff, THdr.recorded]
  i_entry _ _ _ _ _ _ _ h := by rw [h.2.2.2.2]; simp
  save ms h R z0 st0 o c sck hf hi him _ _ hck hst hse hix := by
    obtain ⟨h1, h2, h3, hon, h4⟩ := hi
    unfold tarOnSave
    rw [him.cur]
    simp only [Bool.true_eq_false, if_false]
    split
    · exact ⟨h1, h2, h3, hon, h4⟩
    · rename_i im him2
      generalize hck2 : ({ c.xw.ck with srcCk := some sck, data := some ⟨some c.res, some ⟨c.roff, im⟩⟩, progress := pr sck } : ECkpt) = ck
      have hat : WhereCk ct T clean Y L.CkFor ck := by
        subst hck2
        refine ⟨ms, h, z0, st0, o, hf, him.start, him.stop, ⟨im, ?_, ?_⟩, ⟨sck, rfl, hck⟩, h4, hix, ?_⟩
        · show some (TarState.mk (some c.res) (some ⟨c.roff, im⟩)) = _
          rw [him.res, him.roff, h2]
        · rw [← him.rd]; exact him2
        · simp [THdr.after, THdr.recorded, hf.2.1]
      have hent : ck.entry = some (h.after ct (o - z0)) := by subst hck2; exact h4
      have key : ∀ a, WhereLog ct T clean Y L.CkFor (c.xw.log ++ [.save ck a]) := by
        intro a s hs
        rw [saves_append] at hs
        rcases List.mem_append.mp hs with hs | hs
        · exact h1 s hs
        · simp [saves] at hs; subst hs; exact hat
      split <;> exact ⟨key _, h2, h3, hon, hent⟩
  write ms h R z0 st0 o w bs hf hi _ _ _ hlo := by
    obtain ⟨h1, h2, h3, hon, h4⟩ := hi
    refine ⟨fun hok => ⟨whereLog_plain h1 (by simp), h2, by omega, ?_, ?_⟩, fun _ => whereLog_plain h1 (by simp)⟩
    · exact (hK.write bs w.sink hok).2.trans hon
    · obtain ⟨hn, _⟩ := hK.write bs w.sink hok
      show w.ck.entry.map _ = _
      rw [h4]
      simp only [Option.map_some, THdr.after, hn, hon, countedOff, Option.some.injEq, Entry.mk.injEq, true_and, and_true]
      split <;> omega
  should _ _ _ _ _ _ _ _ h := h
  emit ms h R z0 st0 o w p hi := ⟨whereLog_plain hi.1 (by simp), hi.2⟩
  i_end ms h _ z0 _ o _ hi := hi.1
  i_stop ms h R z0 st0 o w p hi _ _ := whereLog_plain hi.1 (by simp)
  finish ms h R z0 st0 w p e hf hi hlen _ _ he := by
    refine ⟨whereLog_plain hi.1 (by simp), ?_⟩
    rw [hi.2.2.2.2] at he
    cases he
    rw [hi.2.1]
    have h1 := hf.2.1
    have h2 := hf.1
    simp only [writtenFiles, List.filter_append, List.map_append]
    congr 1
    simp [h1]
    congr 1
    omega

/-- The saves of one run into an exactly counting sink. -/
theorem tarRun_where {ct : Str → Bool} {Ck : Ckpt → Nat → Prop} {F : Nat} (hT : T.Law) (X : TarSrc Y clean Ck F) (pr : Ckpt → Int × Int) (hK : Counts K ct) (ck : Option ECkpt)
    (hck : ∀ c, ck = some c → WhereCk ct T clean Y Ck c) (k : K.St) (u : V.St) :
    WhereLog ct T clean Y Ck (tarRun X T pr K V ck k u).2.2.log ∧
    ∀ res, (tarRun X T pr K V ck k u).1 = .ok res → ∃ ms, TarHas T clean Y ms ∧ res = writtenFiles ct ms := by
  have nil : ∀ ev : List Ev, saves ev = [] → WhereLog ct T clean Y X.L.CkFor ev := fun ev h => by unfold WhereLog; rw [h]; simp
  have hs : ∃ o0, TarStart X.L T F V k u (fun ms R w => WhereLog ct T clean Y X.L.CkFor w.log ∧ R = writtenFiles ct ms)
      (fun ms h R z0 _ o w => WhereLog ct T clean Y X.L.CkFor w.log ∧ R = writtenFiles ct ms ∧ z0 ≤ o ∧ hK.on w.sink = ct h.name ∧ w.ck.entry = some (h.after ct (o - z0)))
      (fun w => WhereLog ct T clean Y X.L.CkFor w.log) ck o0 := by
    cases ck with
    | none => exact ⟨0, .fresh (by simp) ⟨nil _ rfl, rfl⟩⟩
    | some c =>
      obtain ⟨ms, h, z0, st0, o, a⟩ := hck c rfl
      have a' := a.mono fun c o => (X.family c o).mpr
      exact ⟨o, .again a' (nil _ rfl) (fun hok => ⟨nil _ rfl, rfl, a.lo, hK.getWriter _ _ hok, a.entry⟩) (fun _ => nil _ rfl)⟩
  obtain ⟨o0, hs⟩ := hs
  obtain ⟨r, s', w', g1, g2, _⟩ := tarResume_rule hT X.L (where_inv X.L pr o0 hK) X.budget X.good (by simp) hs
  have back : ∀ log, WhereLog ct T clean Y X.L.CkFor log → WhereLog ct T clean Y Ck log := by
    intro log h s hm
    obtain ⟨ms, hh, z0, st0, o, a⟩ := h s hm
    exact ⟨ms, hh, z0, st0, o, a.mono fun c o => (X.family c o).mp⟩
  unfold tarRun
  rw [g1]
  rcases g2 with ⟨x, a, b, _⟩ | ⟨res, a, ms, b, c⟩
  · exact ⟨back _ b, fun res h => by simp only at h; rw [a] at h; cases h⟩
  · refine ⟨back _ c.1, fun res' h => ⟨ms, b, ?_⟩⟩
    simp only at h
    rw [a] at h; cases h
    exact c.2

theorem tarSavedIn_where {ct : Str → Bool} {Ck : Ckpt → Nat → Prop} {F : Nat} (hT : T.Law) {c : ECkpt} (h : TarSavedIn Y clean Ck F T (SinkM.CountsBy ct) c) :
    WhereCk ct T clean Y Ck c := by
  induction h with
  | first X pr K V k u hQ hm => exact hQ.elim fun hK => (tarRun_where hT X pr hK none (by simp) k u).1 _ hm
  | again X pr K V k u hQ _ hm ih => exact hQ.elim fun hK => (tarRun_where hT X pr hK (some _) (by intro c hc; cases hc; exact ih) k u).1 _ hm

end
end Savior
