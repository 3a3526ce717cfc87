import Verif.TarRun
/-!
# What a tar run does to the outside, event by event, for every sink
-/

namespace Savior

/-- `e` is the entry of `h`, up to the write offset. -/
def TarEntryLike (h : THdr) (e : Entry) : Prop := ∃ x, e = { tarEntryOf h with woff := x }

/-- Events that happen while a file is copied, other than saves. -/
def Ev.plain : Ev → Prop
  | .write _ _ _ => True
  | .progress _ => True
  | _ => False

section
variable {K : SinkM} {V : SaveCons} {S : SourceM} {Y : List Byte} {clean : Bool} {T : TarFmt}

/-- What a property of the event log must provide. -/
structure TarLogInv (L : Lawful S Y clean) (T : TarFmt) (V : SaveCons) (Qt : Prop) (o0 : Nat)
    (LB : Members → List Ev → Prop) (LI : Members → THdr → Nat → Nat → List Ev → Prop) (LE : List Ev → Prop) : Prop where
  b_end : ∀ ms log, LB ms log → LE log
  i_end : ∀ ms h z0 o log, LI ms h z0 o log → LE log
  i_ev : ∀ ms h z0 o o' log ev, LI ms h z0 o log → o ≤ o' → ev.plain → LI ms h z0 o' (log ++ [ev])
  dir : ∀ ms log h, LB ms log → h.typ = .dir → LB (ms ++ [(h, [])]) (log ++ [.mkdir (tarEntryOf h) none]) ∧ ∀ x, LE (log ++ [.mkdir (tarEntryOf h) (some x)])
  link : ∀ ms log h, LB ms log → h.typ = .symlink →
    LB (ms ++ [(h, [])]) (log ++ [.symlink (tarEntryOf h) h.link none]) ∧ ∀ x, LE (log ++ [.symlink (tarEntryOf h) h.link (some x)])
  other : ∀ ms log h, LB ms log → h.typ = .other → LB (ms ++ [(h, [])]) log
  file : ∀ ms log h z0 st0, LB ms log → FileAt T clean Y ms h z0 st0 →
    LI ms h z0 z0 (log ++ [.openW (tarEntryOf h) none]) ∧ ∀ x, LE (log ++ [.openW (tarEntryOf h) (some x)])
  save : ∀ ms h z0 st0 o log ck R e a, LI ms h z0 o log → TarCkAt T clean Y L.CkFor ck ms h R z0 st0 o e → TarEntryLike h e → o0 ≤ o →
    (Qt → o0 < o ∧ ∃ n u, (V.shouldSave n u).1 = true) → (∃ u, a = (V.save ck u).1) → LI ms h z0 o (log ++ [.save ck a])
  finish : ∀ ms h z0 st0 log p, LI ms h z0 (z0 + T.rem st0) log → FileAt T clean Y ms h z0 st0 →
    LB (ms ++ [(h, (Y.drop z0).take (T.rem st0))]) (log ++ [.progress p])

variable {LB : Members → List Ev → Prop} {LI : Members → THdr → Nat → Nat → List Ev → Prop} {LE : List Ev → Prop}

theorem tarLog_inv {L : Lawful S Y clean} {Qt : Prop} {o0 : Nat} (pr : Ckpt → Int × Int) (H : TarLogInv L T V Qt o0 LB LI LE) :
    TarInv L T pr V K Qt o0 (fun ms _ w => LB ms w.log)
      (fun ms h _ z0 _ o w => LI ms h z0 o w.log ∧ ∃ e, w.ck.entry = some e ∧ TarEntryLike h e) (fun w => LE w.log) (fun w => LE w.log) where
  p_end _ h := h
  b_index _ _ _ _ h := h
  b_end _ _ _ h := H.b_end _ _ h
  dir ms R w h hb ht _ := by
    obtain ⟨a, b⟩ := H.dir ms w.log h hb ht
    refine ⟨fun _ => a, fun hh => ?_⟩
    obtain ⟨x, hx⟩ := Option.ne_none_iff_exists'.mp hh
    rw [hx]
    exact b x
  link ms R w h hb ht _ := by
    obtain ⟨a, b⟩ := H.link ms w.log h hb ht
    refine ⟨fun _ => a, fun hh => ?_⟩
    obtain ⟨x, hx⟩ := Option.ne_none_iff_exists'.mp hh
    rw [hx]
    exact b x
  other ms R w h hb ht _ := H.other ms w.log h hb ht
  file ms R w h z0 st0 hb _ hf := by
    obtain ⟨a, b⟩ := H.file ms w.log h z0 st0 hb hf
    refine ⟨fun _ => ⟨a, tarEntryOf h, rfl, 0, rfl⟩, fun hh => ?_⟩
    obtain ⟨x, hx⟩ := Option.ne_none_iff_exists'.mp hh
    rw [hx]
    exact b x
  i_entry _ _ _ _ _ _ _ h := by obtain ⟨_, e, he, _⟩ := h; rw [he]; simp
  save ms h R z0 st0 o c sck hf hi him ho0 hqt hck hst hse hix := by
    obtain ⟨hl, e, he, hlike⟩ := hi
    unfold tarOnSave
    rw [him.cur]
    simp only [Bool.true_eq_false, if_false]
    split
    · exact ⟨hl, e, he, hlike⟩
    · rename_i im him2
      generalize hck2 : ({ c.xw.ck with srcCk := some sck, data := some ⟨some c.res, some ⟨c.roff, im⟩⟩, progress := pr sck } : ECkpt) = ck
      have hat : TarCkAt T clean Y L.CkFor ck ms h R z0 st0 o e := by
        subst hck2
        refine ⟨hf, him.start, him.stop, ⟨im, ?_, ?_⟩, ⟨sck, rfl, hck⟩, he, hix, ?_⟩
        · show some (TarState.mk (some c.res) (some ⟨c.roff, im⟩)) = _
          rw [him.res, him.roff]
        · rw [← him.rd]; exact him2
        · obtain ⟨x, hx⟩ := hlike; rw [hx]; simp [tarEntryOf, hf.2.1]
      have hent : ck.entry = some e := by subst hck2; exact he
      have key := H.save ms h z0 st0 o c.xw.log ck R e (V.save ck c.xw.cons).1 hl hat hlike ho0 hqt ⟨_, rfl⟩
      split <;> exact ⟨key, e, hent, hlike⟩
  write ms h R z0 st0 o w bs hf hi _ _ _ _ := by
    obtain ⟨hl, e, he, x, hx⟩ := hi
    refine ⟨fun _ => ⟨H.i_ev _ _ _ _ _ _ _ hl (by omega) trivial, ?_⟩, fun _ => H.i_end ms h z0 o _ (H.i_ev _ _ _ _ _ _ _ hl (Nat.le_refl _) trivial)⟩
    refine ⟨_, ?_, x + (K.write bs w.sink).1.2.1, rfl⟩
    show w.ck.entry.map _ = _
    rw [he, hx]; rfl
  should _ _ _ _ _ _ _ _ h := h
  emit ms h R z0 st0 o w p hi := ⟨H.i_ev _ _ _ _ _ _ _ hi.1 (Nat.le_refl _) trivial, hi.2⟩
  i_end ms h _ z0 _ o _ hi := H.i_end ms h z0 o _ hi.1
  i_stop ms h R z0 st0 o w p hi _ _ := H.i_end ms h z0 o _ (H.i_ev _ _ _ _ _ _ _ hi.1 (Nat.le_refl _) trivial)
  finish ms h R z0 st0 w p e hf hi _ _ _ _ := H.finish ms h z0 st0 w.log p hi.1 hf

/-- A whole run. -/
theorem tarResume_log (hT : T.Law) (L : Lawful S Y clean) {Qt : Prop} {o0 : Nat} (H : TarLogInv L T V Qt o0 LB LI LE) (pr : Ckpt → Int × Int) {F : Nat}
    (hF : 2 * L.rankMax + 3 ≤ F) {src : S.St} (hgood : L.Good src) (hq : Qt → L.Quiet src) (k : K.St) (u : V.St) (ck : Option ECkpt)
    (hst : ((∀ c, ck = some c → ∀ R t, c.data ≠ some ⟨some R, some t⟩) ∧ o0 = 0 ∧ LB [] []) ∨
      ∃ c ms h R z0 st0 e, ck = some c ∧ TarCkAt T clean Y L.CkFor c ms h R z0 st0 o0 e ∧ TarEntryLike h e ∧ LE [] ∧
        LI ms h z0 o0 [.openW e none] ∧ ∀ x, LE [.openW e (some x)]) :
    LE (tarResume S T pr F K V ck src k u).2.2.log ∧
    (∀ res, (tarResume S T pr F K V ck src k u).1 = .ok res → ∃ ms, TarHas T clean Y ms ∧ LB ms (tarResume S T pr F K V ck src k u).2.2.log) := by
  have hs : TarStart L T F V k u (fun ms _ w => LB ms w.log)
      (fun ms h _ z0 _ o w => LI ms h z0 o w.log ∧ ∃ e, w.ck.entry = some e ∧ TarEntryLike h e) (fun w => LE w.log) ck o0 := by
    rcases hst with ⟨a, b, c⟩ | ⟨c, ms, h, R, z0, st0, e, rfl, a, b, d, f, g⟩
    · subst b; exact .fresh a c
    · refine .again a d (fun _ => ⟨f, e, a.entry, b⟩) (fun hh => ?_)
      obtain ⟨x, hx⟩ := Option.ne_none_iff_exists'.mp hh
      rw [hx]
      exact g x
  obtain ⟨r, s', w', g1, g2, _⟩ := tarResume_rule hT L (tarLog_inv pr H) hF hgood hq hs
  rw [g1]
  rcases g2 with ⟨x, a, b, _⟩ | ⟨res, a, ms, b, c⟩
  · exact ⟨b, fun res h => by simp only at h; rw [a] at h; cases h⟩
  · exact ⟨H.b_end _ _ c, fun res h => ⟨ms, b, c⟩⟩

end
end Savior
