import Verif.CheckZip
import Verif.TarFaults
/-!
# Tar extraction into the checking sink
-/

namespace Savior

/-- `p` is the name of a supported member that may be written up to `x`. -/
def TarMay (all : Members) (p : Str) (x : Int) : Prop := ∃ m ∈ all, m.1.name = p ∧ m.1.typ ≠ .other ∧ (m.1.typ = .reg → x ≤ m.2.length)

/-- Every file before member `i` was written completely, and member `i` up to `o`. -/
def TLow (all : Members) (i o : Nat) (s : CSt) : Prop :=
  (∀ j m, j < i → all[j]? = some m → m.1.typ = .reg → CReach s m.1.name m.2.length) ∧
  ∀ m, all[i]? = some m → m.1.typ = .reg → CReach s m.1.name o

section
variable {all : Members} {items : List CItem}

theorem TLow.le {i o : Nat} {s s' : CSt} (h : TLow all i o s) (hle : CLe s s') : TLow all i o s' :=
  ⟨fun j m a b c => (h.1 j m a b c).le hle, fun m a b => (h.2 m a b).le hle⟩

theorem CReach.less {s : CSt} {p : Str} {o o' : Nat} (h : CReach s p o) (hle : o' ≤ o) : CReach s p o' := by
  rcases h with h | ⟨d, a, b, c⟩
  · exact .inl (by omega)
  · exact .inr ⟨d, a, b, by omega⟩

theorem TLow.mono {i o i' o' : Nat} {s : CSt} (h : TLow all i o s) (hck : o' = 0 ∨ ∃ m, all[i']? = some m ∧ m.1.typ = .reg ∧ o' ≤ m.2.length)
    (hle : TLe i' o' i o) : TLow all i' o' s := by
  unfold TLe at hle
  refine ⟨fun j m a => h.1 j m (by omega), fun m a b => ?_⟩
  rcases hck with h0 | ⟨m', hm', hr', hlen⟩
  · exact .inl h0
  obtain rfl : m = m' := Option.some.inj (a.symm.trans hm')
  rcases hle with hlt | ⟨rfl, ho⟩
  · exact (h.1 i' m hlt a b).less hlen
  · exact (h.2 m a b).less ho

theorem TLow.next {i : Nat} {m : THdr × List Byte} {s : CSt} (h : TLow all i 0 s) (hm : all[i]? = some m) (hn : m.1.typ = .reg → CReach s m.1.name m.2.length) :
    TLow all (i + 1) 0 s := by
  refine ⟨fun j m' a b c => ?_, fun _ _ _ => .inl rfl⟩
  by_cases he : j = i
  · subst he
    obtain rfl : m = m' := Option.some.inj (hm.symm.trans b)
    exact hn c
  · exact h.1 j m' (by omega) b c

/-- How far files were written. -/
def checkTar (all : Members) (items : List CItem) : TarExtra all (checkPath items) where
  Z i o s := CRecs (TarMay all) items s ∧ TLow all i o s
  mono h a b := ⟨h.1, h.2.mono a b⟩
  mkdir := by
    intro i m s _ h hm ht
    have hs : CRecs (TarMay all) items (cMkdir (tarEntryOf m.1) s).2 := h.1.touch (cMkdir_touch _ s) ⟨m, List.mem_of_getElem? hm, rfl, by simp [ht], by simp [ht]⟩
    have hl := h.2.le (cMkdir_touch (tarEntryOf m.1) s).le
    exact ⟨⟨hs, hl⟩, fun _ => ⟨hs, hl.next hm (by simp [ht])⟩⟩
  symlink := by
    intro i m s _ h hm ht
    have hs : CRecs (TarMay all) items (cSymlink (tarEntryOf m.1) m.1.link s).2 :=
      h.1.touch (cSymlink_touch _ _ s) ⟨m, List.mem_of_getElem? hm, rfl, by simp [ht], by simp [ht]⟩
    have hl := h.2.le (cSymlink_touch (tarEntryOf m.1) m.1.link s).le
    exact ⟨⟨hs, hl⟩, fun _ => ⟨hs, hl.next hm (by simp [ht])⟩⟩
  other h hm ht := ⟨h.1, h.2.next hm (by simp [ht])⟩
  open_ := by
    intro i n m s _ h hm hr hn
    exact ⟨h.1.touch (cOpen_touch _ s) ⟨m, List.mem_of_getElem? hm, rfl, by simp [hr], by simp⟩, h.2.le (cOpen_touch _ s).le⟩
  write := by
    intro i n m s bs hinv h hm hr hat _ hbs hlen
    obtain ⟨k1, k2, k3⟩ := h.1.write (bs := bs) hinv.2 (hat rfl) (fun x hx => ⟨m, List.mem_of_getElem? hm, rfl, by simp [hr], fun _ => by omega⟩)
    refine ⟨⟨k1, h.2.le k2⟩, fun hok => ⟨k1, (h.2.le k2).1, fun m' hm' hr' => ?_⟩⟩
    obtain rfl : m = m' := Option.some.inj (hm.symm.trans hm')
    exact k3 hok (h.2.2 m hm hr)
  close h := h
  finish hm hr h := ⟨h.1, (h.2.mono (Or.inl rfl) (Or.inr ⟨rfl, Nat.zero_le _⟩)).next hm (fun _ => h.2.2 _ hm hr)⟩

end

section
variable {Y : List Byte} {clean : Bool} {Ck : Ckpt → Nat → Prop} {F : Nat} {T : TarFmt}

/-- After any number of runs. -/
theorem tarAttempts_okX (hT : T.Law) {all : Members} (hall : TarHas T clean Y all) {K : SinkM} (P : PathLaw K) (hfit : P.FitsMembers all) (Z : TarExtra all P)
    (hreb : ∀ i o s, P.Inv s → Z.Z i o s → Z.Z i o (K.reborn s)) {k0 : K.St} (hk0 : P.Inv k0) (hz0 : Z.Z 0 0 k0) {hist : List ECkpt} {k : K.St}
    (h : TarAttempts Y clean Ck F T K k0 hist k) : TarOKX all Ck T clean Y P Z hist k := by
  have next : ∀ {hist : List ECkpt} {k k' : K.St}, TarOKX all Ck T clean Y P Z hist k → K.Next k k' → TarOKX all Ck T clean Y P Z hist k' := by
    rintro hist k k' ⟨a, i, o, b, c, d⟩ (rfl | rfl)
    · exact ⟨a, i, o, b, c, d⟩
    · obtain ⟨g1, g2⟩ := P.reborn_spec k a
      exact ⟨g1, i, o, b, by rw [g2]; exact c, hreb _ _ _ a d⟩
  induction h with
  | refl => exact ⟨hk0, 0, 0, .nil _ _, .nothing .., hz0⟩
  | step X pr V u _ hc hn ih => exact next (tarRun_pathX hT hall P hfit Z X pr _ _ _ _ u ih hc).1 hn
  | kept X pr V u _ hc hs hn ih =>
    obtain ⟨⟨g1, i, o, _, _, g2⟩, _, g3⟩ := tarRun_pathX hT hall P hfit Z X pr _ _ _ _ u ih hc
    refine next ⟨g1, 0, 0, ?_, .nothing .., Z.mono g2 (Or.inl rfl) (by unfold TLe; omega)⟩ hn
    exact .snoc (.nil 0 0) (Or.inr ⟨g3 hs, rfl, rfl⟩)

end

/-! ## No false alarms -/

section
variable {V : SaveCons} {S : SourceM} {Y : List Byte} {clean : Bool} {T : TarFmt} {items : List CItem}

/-- The items say of every supported member what the archive says. -/
def MatchesTar (all : Members) (items : List CItem) : Prop :=
  ∀ m ∈ all, m.1.typ ≠ .other → ∃ it, items.find? (·.path = m.1.name) = some it ∧ it.node = tarNodeOf m

theorem MatchesTar.dir {all : Members} (h : MatchesTar all items) {m : THdr × List Byte} (hz : m ∈ all) (hk : m.1.typ = .dir) :
    ∃ it, items.find? (·.path = m.1.name) = some it ∧ it.kind = .dir := by
  obtain ⟨it, h1, h2⟩ := h m hz (by simp [hk])
  refine ⟨it, h1, ?_⟩
  unfold CItem.node tarNodeOf at h2
  rw [hk] at h2
  cases hi : it.kind <;> rw [hi] at h2 <;> first | rfl | cases h2

theorem MatchesTar.symlink {all : Members} (h : MatchesTar all items) {m : THdr × List Byte} (hz : m ∈ all) (hk : m.1.typ = .symlink) :
    ∃ it, items.find? (·.path = m.1.name) = some it ∧ it.kind = .symlink ∧ it.link = m.1.link := by
  obtain ⟨it, h1, h2⟩ := h m hz (by simp [hk])
  unfold CItem.node tarNodeOf at h2
  rw [hk] at h2
  cases hi : it.kind <;> rw [hi] at h2 <;> simp at h2
  exact ⟨it, h1, hi, h2⟩

theorem MatchesTar.file {all : Members} (h : MatchesTar all items) {m : THdr × List Byte} (hz : m ∈ all) (hk : m.1.typ = .reg) :
    ∃ it, items.find? (·.path = m.1.name) = some it ∧ it.kind = .file ∧ it.data = m.2 := by
  obtain ⟨it, h1, h2⟩ := h m hz (by simp [hk])
  unfold CItem.node tarNodeOf at h2
  rw [hk] at h2
  cases hi : it.kind <;> rw [hi] at h2 <;> simp at h2
  exact ⟨it, h1, hi, h2⟩

theorem cMkdir_fine {s : CSt} {e : Entry} {it : CItem} (h : s.items.find? (·.path = e.path) = some it) (hk : it.kind = .dir) : (cMkdir e s).1 = none := by
  have h' : s.item e.path = some it := h
  unfold cMkdir cWith
  rw [h']
  simp [hk]

theorem cSymlink_fine {s : CSt} {e : Entry} {t : Str} {it : CItem} (h : s.items.find? (·.path = e.path) = some it) (hk : it.kind = .symlink) (hl : it.link = t) :
    (cSymlink e t s).1 = none := by
  have h' : s.item e.path = some it := h
  unfold cSymlink cWith
  rw [h']
  simp [hk, hl]

/-- Nothing failed so far; carried through a run. -/
theorem tarFine_inv {all : Members} (hall : TarHas T clean Y all) (hm : MatchesTar all items) (L : Lawful S Y clean) (pr : Ckpt → Int × Int)
    (before : List ECkpt) (o0 : Nat) :
    TarInv L T pr V checkSink False o0
      (fun ms R w => TPB all L.CkFor T clean Y (checkPath items) (.nothing all _) before ms R w ∧ CFine items w)
      (fun ms h R z0 st0 o w => TPI all L.CkFor T clean Y (checkPath items) (.nothing all _) before ms h R z0 st0 o w ∧ CFine items w)
      (fun w => TPE all L.CkFor T clean Y (checkPath items) (.nothing all _) before w ∧ CFine items w)
      (fun w => TPP all L.CkFor T clean Y (checkPath items) (.nothing all _) before w ∧ CFine items w) := by
  have base := tarPath_inv (V := V) hall (checkPath items) (fun _ _ _ => trivial) L pr (.nothing all _) before o0
  refine
    { p_end := fun w h => ⟨base.p_end w h.1, h.2⟩
      b_index := fun ms R w i h => ⟨base.b_index ms R w i h.1, h.2⟩
      b_end := fun ms R w h => ⟨base.b_end ms R w h.1, h.2⟩
      dir := ?_, link := ?_
      other := fun ms R w h hb ht hp => ⟨base.other ms R w h hb.1 ht hp, hb.2⟩
      file := ?_
      i_entry := fun ms h R z0 st0 o w hi => base.i_entry ms h R z0 st0 o w hi.1
      save := ?_, write := ?_
      should := fun ms h R z0 st0 o w n hi => ⟨base.should ms h R z0 st0 o w n hi.1, hi.2⟩
      emit := fun ms h R z0 st0 o w p hi => ⟨base.emit ms h R z0 st0 o w p hi.1, hi.2.say (w' := w.say (.progress p)) rfl rfl rfl⟩
      i_end := fun ms h R z0 st0 o w hi => ⟨base.i_end ms h R z0 st0 o w hi.1, hi.2⟩
      i_stop := fun ms h R z0 st0 o w p hi a b => ⟨base.i_stop ms h R z0 st0 o w p hi.1 a b, hi.2.say (w' := (w.say (.progress p)).cleared) rfl rfl rfl⟩
      finish := fun ms h R z0 st0 w p e hf hi a b c d =>
        ⟨base.finish ms h R z0 st0 w p e hf hi.1 a b c d, hi.2.say (w' := (w.say (.progress p)).cleared) rfl rfl rfl⟩ }
  · intro ms R w h hb ht hp
    obtain ⟨a, b⟩ := base.dir ms R w h hb.1 ht hp
    obtain ⟨st, Y', hp'⟩ := hp
    obtain ⟨it, g1, g2⟩ := hm.dir (List.mem_of_getElem? (tarPath_next hall hp')) ht
    have hok : (checkSink.mkdir (tarEntryOf h) w.sink).1 = none := cMkdir_fine (by rw [hb.2.1]; exact g1) g2
    exact ⟨fun hn => ⟨a hn, hb.2.say (w' := (({ w.withEntry (tarEntryOf h) with sink := (checkSink.mkdir (tarEntryOf h) w.sink).2 } : XW checkSink V).say (.mkdir (tarEntryOf h) none)).cleared)
      (cMkdir_touch _ _).1 rfl rfl⟩, fun hn => absurd hok hn⟩
  · intro ms R w h hb ht hp
    obtain ⟨a, b⟩ := base.link ms R w h hb.1 ht hp
    obtain ⟨st, Y', hp'⟩ := hp
    obtain ⟨it, g1, g2, g3⟩ := hm.symlink (List.mem_of_getElem? (tarPath_next hall hp')) ht
    have hok : (checkSink.symlink (tarEntryOf h) h.link w.sink).1 = none := cSymlink_fine (by rw [hb.2.1]; exact g1) g2 g3
    exact ⟨fun hn => ⟨a hn, hb.2.say (w' := (({ w.withEntry (tarEntryOf h) with sink := (checkSink.symlink (tarEntryOf h) h.link w.sink).2 } : XW checkSink V).say (.symlink (tarEntryOf h) h.link none)).cleared)
      (cSymlink_touch _ _ _).1 rfl rfl⟩, fun hn => absurd hok hn⟩
  · intro ms R w h z0 st0 hb hse hf
    obtain ⟨a, b⟩ := base.file ms R w h z0 st0 hb.1 hse hf
    obtain ⟨_, hm'⟩ := fileAt_next hall hf
    obtain ⟨it, g1, g2, g3⟩ := hm.file (List.mem_of_getElem? hm') hf.2.1
    have hok : (checkSink.getWriter (tarEntryOf h) w.sink).1 = none :=
      cOpen_fine (by rw [hb.2.1]; exact g1) g2 (Int.le_refl 0) (Int.natCast_nonneg _)
    exact ⟨fun hn => ⟨a hn, hb.2.say (w' := { ({ w.withEntry (tarEntryOf h) with sink := (checkSink.getWriter (tarEntryOf h) w.sink).2 } : XW checkSink V).say (.openW (tarEntryOf h) none) with stop := false })
      (cOpen_touch _ _).1 rfl rfl⟩, fun hn => absurd hok hn⟩
  · intro ms h R z0 st0 o c sck hf hi him a b d e f g
    refine ⟨base.save ms h R z0 st0 o c sck hf hi.1 him a b d e f g, ?_⟩
    unfold tarOnSave
    split
    · exact hi.2
    · split
      · exact hi.2
      · simp only
        split <;> exact CFine.say (w := c.xw) hi.2 rfl rfl rfl
  · intro ms h R z0 st0 o w bs hf hi hbs hlen hstop hlo
    obtain ⟨a, b⟩ := base.write ms h R z0 st0 o w bs hf hi.1 hbs hlen hstop hlo
    obtain ⟨hle, hmm⟩ := fileAt_next hall hf
    obtain ⟨it, g1, g2, g3⟩ := hm.file (List.mem_of_getElem? hmm) hf.2.1
    obtain ⟨c, _, _, ⟨wr, hl, hp, hof⟩, _⟩ := hi.1.node rfl
    obtain ⟨ws, hws⟩ := list_snoc_of_getLast? hl
    obtain ⟨r1, r2, _⟩ := cWrite_last bs w.sink ws wr hws
    have hit : wr.item = it := by
      have := (hi.1.inv.2 wr (by rw [hws]; simp)).1
      unfold CSt.item at this
      rw [hp, hi.2.1, g1] at this
      exact (Option.some.inj this).symm
    have hbs' : bs = (((Y.drop z0).take (T.rem st0)).drop (o - z0)).take bs.length := by
      rw [List.drop_take, List.take_take, List.drop_drop, show z0 + (o - z0) = o from by omega, Nat.min_eq_left (by omega)]
      exact hbs
    have hok : (cWrite (w.sink.wr.length - 1) bs w.sink).1.2 = none := by
      rw [r1, hit, g3, hof, cCheck_fine _ _ _ hbs' (by simp; omega)]
    refine ⟨fun hn => ⟨a hn, hi.2.say (w' := (w.write bs).2) r2 rfl hok⟩, fun hn => absurd hok hn⟩

/-- A run into a checking sink whose items match. -/
theorem tarRun_fine {Ck : Ckpt → Nat → Prop} {F : Nat} (hT : T.Law) {all : Members} (hall : TarHas T clean Y all) (hm : MatchesTar all items)
    (X : TarSrc Y clean Ck F) (pr : Ckpt → Int × Int) (hist before : List ECkpt) (ck : Option ECkpt) (k : CSt) (u : V.St)
    (hok : TarOK all Ck T clean Y (checkPath items) hist k) (hck : ChooseCk hist ck before) :
    ∀ ev ∈ (tarRun X T pr checkSink V ck k u).2.2.log, ev.sinkError = none := by
  have hitems : k.items = items := hok.1.1
  obtain ⟨o1, hst⟩ := tarRun_start (V := V) hall (checkPath items) (fun _ _ _ => trivial) (.nothing all _) X hist before ck k u hok hck
  have hst' : TarStart X.L T F V k u
      (fun ms R w => TPB all X.L.CkFor T clean Y (checkPath items) (.nothing all _) before ms R w ∧ CFine items w)
      (fun ms h R z0 st0 o w => TPI all X.L.CkFor T clean Y (checkPath items) (.nothing all _) before ms h R z0 st0 o w ∧ CFine items w)
      (fun w => TPE all X.L.CkFor T clean Y (checkPath items) (.nothing all _) before w ∧ CFine items w) ck o1 := by
    cases hst with
    | fresh hnd hb => exact .fresh hnd ⟨hb, hitems, fun _ h => (by cases h)⟩
    | @again c ms h R z0 st0 _ e ha he hi hbad =>
      have hfin : CFine items (tarWorld c k u : XW checkSink V) := ⟨hitems, fun _ h => (by cases h)⟩
      by_cases hn : (checkSink.getWriter e k).1 = none
      · refine .again ha ⟨he, hfin⟩ (fun h => ⟨hi h, CFine.say (w := (tarWorld c k u : XW checkSink V)) hfin (cOpen_touch _ _).1 rfl rfl⟩) (fun h => absurd hn h)
      · exfalso
        obtain ⟨_, i0, o0, hh, _⟩ := hok
        obtain ⟨i, n, hp, _, _⟩ := hh.choose hck
        rcases hp with ⟨ms', h', z', st', o', ha', _, _⟩ | ⟨hnd, _, _⟩
        · obtain ⟨hle, hmm⟩ := fileAt_next hall ha'.file
          obtain ⟨it, g1, g2, g3⟩ := hm.file (List.mem_of_getElem? hmm) ha'.file.2.1
          have he' := ha'.entry.symm.trans ha.entry
          injection he' with he'
          subst he'
          refine hn (cOpen_fine (it := it) (by rw [hitems]; exact g1) g2 (Int.natCast_nonneg _) ?_)
          rw [g3]
          show ((o' - z' : Nat) : Int) ≤ _
          have := ha'.hi
          have := ha'.lo
          simp
          omega
        · obtain ⟨im, hd, _⟩ := ha.data
          exact hnd _ _ hd
  obtain ⟨r, s', w', g1, g2, _⟩ := tarResume_rule (Qt := False) hT X.L (tarFine_inv hall hm X.L pr before o1) X.budget X.good (by simp) hst'
  have g1' : tarRun X T pr checkSink V ck k u = (r, s', w') := g1
  rw [g1']
  rcases g2 with ⟨x, a, b, _⟩ | ⟨res, a, ms, b, c⟩
  · exact b.2.2
  · exact c.2.2

end

end Savior
