import Verif.Wrap
import Verif.SRLemmas
import Verif.DiscardLemmas
/-!
# Decompressing sources are lawful
-/

namespace Savior

section
variable {I : SourceM} {Z : List Byte} {cz : Bool} (L : Lawful I Z cz) (cfg : WrapCfg) (D : Decomp)

/-- May be resumed: the source may, and if there is no decompressor yet no save request may be pending (otherwise
reading during `Resume` would call `WantSave` on a nil decompressor). -/
def GoodW (s : WrapSt D I) : Prop := L.Good s.src ∧ (s.sr = none → L.Quiet s.src)

def LiveW (s : WrapSt D I) : Prop := L.Live s.src ∧ s.sr ≠ none

def AtW (s : WrapSt D I) (o : Nat) : Prop :=
  ∃ r, s.sr = some r ∧ s.offset = o ∧ SRInv L D r s.src s.srcCk o

/-- A checkpoint for offset `o`: a decompressor state at a block boundary together with a source checkpoint at or before
the decompressor's read position; before it, if the source is plain. -/
def CkW (ck : Ckpt) (o : Nat) : Prop :=
  ∃ (sck : Ckpt) (oi ri : Nat) (st : D.St),
    ck = .dec cfg.tag o (some sck) (if cfg.ownOffset then o else 0) ⟨ri, o, D.enc st⟩ ∧
    D.canSave st = true ∧ L.CkFor sck oi ∧ oi ≤ ri ∧ (L.plain → oi < ri) ∧ ri ≤ Z.length ∧
    o ≤ (D.decode D.start Z cz).1.length ∧
    (D.decode st (Z.drop ri) cz).1 = (D.decode D.start Z cz).1.drop o ∧
    (D.decode st (Z.drop ri) cz).2 = (D.decode D.start Z cz).2

def QuietW (s : WrapSt D I) : Prop := L.Quiet s.src ∧ ∀ r, s.sr = some r → r.want = false

def NiceW : Prop := L.nice ∧ L.lazy ∧ ∀ st, D.canSave st = true → D.saveOK st = true

def ExactW : Prop := ∀ st, D.canSave st = true → D.dec (D.enc st) = some st

def rankW (s : WrapSt D I) : Nat :=
  ((D.decode D.start Z cz).1.length - s.offset).toNat + (match s.sr with | some r => srRank L D r s.src | none => 0)

variable {L D} {F : Nat}

theorem srInv_src {r : SR D} {src src' : I.St} {ck : Option Ckpt} {o : Nat} (h : SRInv L D r src ck o)
    (h1 : L.Live src → L.Live src') (h2 : ∀ ri, L.At src ri → L.At src' ri) : SRInv L D r src' ck o := by
  obtain ⟨a, b, c, d, e, f⟩ := h
  refine ⟨a, b, c, h1 d, fun he => ?_, f⟩
  obtain ⟨ri, e1, e2, e3⟩ := e he
  exact ⟨ri, e1, h2 ri e2, e3⟩

theorem fromStart_spec (hD : D.Law) (hB : (∀ st, D.ask st ≠ 0) ∨ LawfulByte L) (hF : L.rankMax + 2 ≤ F)
    (s : WrapSt D I) (hg : L.Good s.src) (hq : s.sr = none → L.Quiet s.src ∨ D.inHeader D.start = false) :
    (∃ s', Wrap.fromStart cfg D I F s = (.ok 0, s') ∧ AtW L D s' 0 ∧ (L.Quiet s.src → QuietW L D s')) ∨
    (∃ e s', Wrap.fromStart cfg D I F s = (.error e, s') ∧
      (NiceW L D → (D.decode D.start Z cz).2 = false ∧ (D.decode D.start Z cz).1 = []) ∧ e ≠ .panic ∧ e ≠ .diverge) := by
  unfold Wrap.fromStart
  rcases L.resume_nil hg with ⟨s', h1, h2, h3⟩ | ⟨e, s', h1, h2, h3, h4⟩
  · simp only [h1]
    rw [if_neg (by simp)]
    have hinv := srInv_start (ck := s.srcCk) hD s' h2
    have hrk := L.rank_le h2
    rcases hdrLoop_spec hD hB F (SR.mk' D.start 0 0) s' s.srcCk false hinv rfl (fun _ => ⟨rfl, by simp [SR.mk']⟩)
      (by omega) (fun _ => by omega) with ⟨r', src', ck', fired', g1, g2, g3, g4⟩ | ⟨e, src', ck', fired', g1, g0, g2, g3, g4, g5⟩
    · have hnp : (fired' && s.sr.isNone) = false := by
        cases hsr : s.sr with
        | some r => simp
        | none =>
          rcases hq hsr with h | h
          · simp [(g4 (h3 h)).2]
          · have hfu : ∃ f, F = f + 1 := ⟨F - 1, by omega⟩
            obtain ⟨f, rfl⟩ := hfu
            have : hdrLoop D I (f + 1) (SR.mk' D.start 0 0) s' s.srcCk false = (.ok (SR.mk' D.start 0 0), s', s.srcCk, false) := by
              unfold hdrLoop
              rw [if_pos (by simpa [SR.mk'] using h)]
            rw [this] at g1
            simp at g1
            simp [← g1.2.2.2]
      simp only [g1, hnp]
      left
      refine ⟨_, rfl, ⟨r', rfl, rfl, g2⟩, fun hq => ⟨(g4 (h3 hq)).1, ?_⟩⟩
      intro r hr
      simp at hr; subst hr; exact g3
    · have hnp : (fired' && s.sr.isNone) = false := by
        cases hsr : s.sr with
        | some r => simp
        | none =>
          rcases hq hsr with h | h
          · simp [(g5 (h3 h)).2]
          · simp [SR.mk', h] at g0
      simp only [g1, hnp]
      right
      refine ⟨_, _, rfl, fun hn => g4 hn.1, ?_, ?_⟩
      · cases cfg.wrapsNew <;> simp [g2]
      · cases cfg.wrapsNew <;> simp [g3]
  · simp only [h1]
    right
    refine ⟨_, _, rfl, fun hn => ?_, by simp, by simp⟩
    obtain ⟨a, b⟩ := h2 hn.1
    subst b
    simp [Decomp.decode, hD.start_fin, a]

/-- Without a header, starting over never reads from the source. -/
theorem aligned_spec (hD : D.Law) (hB : (∀ st, D.ask st ≠ 0) ∨ LawfulByte L) (hF : L.rankMax + 2 ≤ F)
    (s : WrapSt D I) (ri o : Nat) (ckOff : Int) (st : D.St) (hat : L.At s.src ri) (ho : cfg.ownOffset = true → ckOff = o)
    (hs : D.canSave st = true) (hol : o ≤ (D.decode D.start Z cz).1.length)
    (hd1 : (D.decode st (Z.drop ri) cz).1 = (D.decode D.start Z cz).1.drop o)
    (hd2 : (D.decode st (Z.drop ri) cz).2 = (D.decode D.start Z cz).2) :
    (∃ (o' : Nat) (s' : WrapSt D I), Wrap.aligned cfg D I F ri ckOff ⟨ri, o, D.enc st⟩ s = (.ok (o' : Int), s') ∧
      (o' = o ∨ o' = 0) ∧ (ExactW D → o' = o) ∧ AtW L D s' o' ∧ (L.Quiet s.src → QuietW L D s')) ∨
    (∃ e s', Wrap.aligned cfg D I F ri ckOff ⟨ri, o, D.enc st⟩ s = (.error e, s') ∧
      (NiceW L D → (D.decode D.start Z cz).2 = false ∧ (D.decode D.start Z cz).1 = []) ∧ e ≠ .panic ∧ e ≠ .diverge) := by
  unfold Wrap.aligned
  rw [if_pos rfl]
  rcases hD.dec_enc st hs with h | ⟨h, hnh⟩
  · simp only [h]
    left
    have hoo : (if cfg.ownOffset then ckOff else (o : Int)) = o := by
      cases hc : cfg.ownOffset with
      | true => simp [ho hc]
      | false => simp
    rw [hoo]
    refine ⟨o, _, rfl, Or.inl rfl, fun _ => rfl, ⟨_, rfl, rfl, ?_⟩, fun hq => ⟨hq, ?_⟩⟩
    · refine ⟨hol, rfl, by simp [SR.mk'], L.at_live hat, fun _ => ⟨ri, rfl, hat, hD.save_fin st hs, ?_, hd2⟩, by simp [SR.mk']⟩
      simpa [SR.mk'] using hd1
    · intro r hr
      simp at hr; subst hr; rfl
  · simp only [h]
    rcases L.resume_nil (L.live_good (L.at_live hat)) with ⟨s', h1, h2, h3⟩ | ⟨e, s', h1, h2, h3, h4⟩
    · simp only [h1]
      rcases fromStart_spec (cfg := cfg) hD hB hF { s with src := s', sr := none } (L.live_good (L.at_live h2)) (fun _ => Or.inr hnh)
        with ⟨s2, g1, g2, g3⟩ | ⟨e, s2, g1, g2, g3, g4⟩
      · exact Or.inl ⟨0, s2, g1, Or.inr rfl, fun hx => (by rw [hx st hs] at h; cases h), g2, fun hq => g3 (h3 hq)⟩
      · exact Or.inr ⟨e, s2, g1, g2, g3, g4⟩
    · simp only [h1]
      right
      refine ⟨_, _, rfl, fun hn => ?_, by simp, by simp⟩
      obtain ⟨a, b⟩ := h2 hn.1
      subst b
      simp [Decomp.decode, hD.start_fin, a]

theorem resumeW_spec (hD : D.Law) (hB : (∀ st, D.ask st ≠ 0) ∨ LawfulByte L) (hF : L.rankMax + 2 ≤ F)
    (s : WrapSt D I) (ck : Ckpt) (o : Nat) (hg : GoodW L D s) (hck : CkW L cfg D ck o) :
    (∃ (o' : Nat) (s' : WrapSt D I), Wrap.resume cfg D I F (some ck) s = (.ok (o' : Int), s') ∧
      (o' = o ∨ o' = 0) ∧ (ExactW D → o' = o) ∧ AtW L D s' o' ∧ QuietW L D s') ∨
    (∃ e s', Wrap.resume cfg D I F (some ck) s = (.error e, s') ∧
      (NiceW L D → (D.decode D.start Z cz).2 = false ∧ (D.decode D.start Z cz).1 = []) ∧ e ≠ .panic ∧ e ≠ .diverge) := by
  obtain ⟨sck, oi, ri, st, rfl, hs, hsck, hoi, hoi', hri, hol, hd1, hd2⟩ := hck
  unfold Wrap.resume
  simp only [if_true]
  rcases L.resume_ck hg.1 hsck with ⟨oi', s', h1, h2, _, h3, h4⟩ | ⟨e, s', h1, h2, h3, h4⟩
  · simp only [h1]
    have hle : oi' ≤ ri := by omega
    have hnq : ¬ L.plain → L.Quiet s' := fun hp => L.resume_quiet hp hg.1 hsck h1
    by_cases hlt : (oi' : Int) < (ri : Int)
    · rw [if_pos hlt]
      have hdel : (ri : Int) - (oi' : Int) = ((ri - oi' : Nat) : Int) := by omega
      rw [hdel]
      have hrk := L.rank_le h3
      obtain ⟨r, s2, c2, g1, _, g3, g4, g5⟩ := discard_spec L srCb (fun _ => True) (fun _ _ _ => trivial) F (ri - oi') s' oi'
        (s.srcCk, false) h3 (by omega) trivial
      simp only [g1]
      have hnp : (c2.2 && s.sr.isNone) = false := by
        cases hsr : s.sr with
        | some r => simp
        | none => simp [(g4 (h4 (hg.2 hsr))).2]
      rw [hnp]
      simp only [Bool.false_eq_true, if_false]
      rcases g5 with ⟨g6, g7⟩ | ⟨e, k, g6, g7, g8, g9, g10, g11, g12, g13, g14, g15⟩ | ⟨e, ck, c1, g6, g7⟩ | ⟨e, g6, g7, g8, g9, g10⟩
      · subst g6
        simp only []
        rw [show oi' + (ri - oi') = ri from by omega] at g7
        rcases aligned_spec (cfg := cfg) hD hB hF { s with src := s2, srcCk := c2.1 } ri o _ st g7 (fun h => if_pos h) hs hol hd1 hd2 with
          ⟨o', s3, k1, k2, kx, k3, k4⟩ | ⟨e, s3, k1, k2, k3, k4⟩
        · refine Or.inl ⟨o', s3, k1, k2, kx, k3, k4 ?_⟩
          by_cases hp : L.plain
          · have := discard_plain L hp srCb F (ri - oi') s' oi' (s.srcCk, false) h3 (by omega) (by rw [g1])
            rw [g1] at this
            exact this
          · exact (g4 (hnq hp)).1
        · exact Or.inr ⟨e, s3, k1, k2, k3, k4⟩
      · subst g6
        right
        refine ⟨_, _, rfl, fun hn => ?_, by simp, by simp⟩
        have := g15 hn.2.1
        omega
      · simp [srCb] at g7
      · subst g6
        right
        refine ⟨_, _, rfl, fun hn => ?_, by simp, by simp⟩
        have := (g10 hn.1).2 hn.2.1
        omega
    · rw [if_neg hlt]
      have : oi' = ri := by omega
      subst this
      rcases aligned_spec (cfg := cfg) hD hB hF { s with src := s' } oi' o _ st h3 (fun h => if_pos h) hs hol hd1 hd2 with
          ⟨o', s3, k1, k2, kx, k3, k4⟩ | ⟨e, s3, k1, k2, k3, k4⟩
      · refine Or.inl ⟨o', s3, k1, k2, kx, k3, k4 (hnq fun hp => ?_)⟩
        have := hoi' hp
        omega
      · exact Or.inr ⟨e, s3, k1, k2, k3, k4⟩
  · simp only [h1]
    right
    refine ⟨_, _, rfl, fun hn => ?_, by simp, by simp⟩
    obtain ⟨a, b⟩ := h2 hn.1
    subst b
    simp [Decomp.decode, hD.start_fin, a]

theorem readW_spec (hD : D.Law) (hB : (∀ st, D.ask st ≠ 0) ∨ LawfulByte L) (hF : L.rankMax + 2 ≤ F)
    {C : Type} (cb : Callback C) (s : WrapSt D I) (o n : Nat) (c : C) (h : AtW L D s o) (hn : 0 < n) :
    ∃ (bs : List Byte) (e : Option Err) (s' : WrapSt D I) (em : Option Ckpt),
      Wrap.read cfg D I F cb n s c = ((bs, e), s', deliver cb em c) ∧
      (∀ ck, em = some ck → CkW L cfg D ck o) ∧
      (QuietW L D s → (em = none ∧ QuietW L D s') ∧ (e = none → bs ≠ [])) ∧
      bs.length ≤ n ∧ bs = ((D.decode D.start Z cz).1.drop o).take bs.length ∧
      LiveW L D s' ∧ s'.hasSSC = s.hasSSC ∧ s'.bytebuf = s.bytebuf ∧
      ((e = none ∧ AtW L D s' (o + bs.length) ∧ rankW L D s' < rankW L D s ∧ (bs ≠ [] → em = none) ∧
          (bs = [] → ∃ r, s'.sr = some r ∧ r.pend = [] ∧ r.err = none ∧ r.want = false ∧ D.canSave r.st = true)) ∨
       (e = some .eof ∧ AtW L D s' (o + bs.length) ∧ o + bs.length = (D.decode D.start Z cz).1.length ∧ em = none ∧
          (D.decode D.start Z cz).2 = true ∧ (D.eager = false → bs = [] ∧
          ∃ r, s'.sr = some r ∧ r.pend = [] ∧ r.err = some .eof)) ∨
       (∃ ck x, em = some ck ∧ (cb ck c).2 = some x ∧ e = some x ∧ bs = [] ∧ AtW L D s' o ∧
         rankW L D s' < rankW L D s ∧
         ∃ r, s'.sr = some r ∧ r.pend = [] ∧ r.err = none ∧ r.want = false ∧ D.canSave r.st = true) ∨
       (∃ x, e = some x ∧ x ≠ .eof ∧ x ≠ .panic ∧ x ≠ .diverge ∧ x ≠ .readyToSave ∧ em = none ∧
          AtW L D s' (o + bs.length) ∧
          (x = .saveFailed ∧ bs = [] ∧ ¬ NiceW L D ∧ rankW L D s' < rankW L D s ∧
            (∃ r, s'.sr = some r ∧ r.pend = [] ∧ r.err = none ∧ r.want = false ∧ D.canSave r.st = true) ∨
           (D.eager = false → bs = [] ∧ ∃ r, s'.sr = some r ∧ r.pend = [] ∧ r.err = some x) ∧
           (NiceW L D → (D.decode D.start Z cz).2 = false ∧ o + bs.length = (D.decode D.start Z cz).1.length)))) := by
  obtain ⟨r, hr, hoff, hinv⟩ := h
  unfold Wrap.read
  simp only [hr]
  have hfuel : r.pend = [] → r.err = none → L.rank s.src + 2 ≤ F := by
    intro _ he
    obtain ⟨ri, _, h, _⟩ := hinv.2.2.2.2.1 he
    have := L.rank_le h
    omega
  obtain ⟨bs, e, r', src', ck', h1, h2, h3, h4, h5, h6⟩ := srLoop_spec hB n hn o F r s.src s.srcCk hinv (by omega) hfuel
  simp only [h1]
  have hoff' : s.offset + (bs.length : Int) = ((o + bs.length : Nat) : Int) := by rw [hoff]; omega
  have hbl : bs.length ≤ (D.decode D.start Z cz).1.length - o := by
    have := h2.1; omega
  have hrank0 : ∀ k : Nat, srRank L D r' src' + k ≤ srRank L D r s.src → ∀ (hs : Bool) (b : Byte) ck2,
      rankW L D { s with src := src', sr := some r', offset := s.offset + (bs.length : Int), srcCk := ck2, hasSSC := hs, bytebuf := b } + k + bs.length ≤ rankW L D s := by
    intro k hk hs b ck2
    simp only [rankW, hr]
    have := h2.1
    have : s.offset + (bs.length : Int) = ((o + bs.length : Nat) : Int) := hoff'
    rw [this, hoff]
    omega
  by_cases hrs : e = some .readyToSave
  · subst hrs
    rw [if_pos rfl]
    rcases h6 with ⟨h, _⟩ | ⟨_, g1, g2, g3, g4, g5, ⟨k, oi, g6, g7, g8, g8'⟩, g9⟩ | ⟨h, _⟩ | ⟨x, h, _, _, _, h', _⟩
    · cases h
    · subst g6
      subst g1
      simp only []
      have hnq : QuietW L D s → False := by
        intro hq
        exact (h5 hq.1 (hq.2 r hr)).2.2 rfl
      have hat : ∀ ck2, AtW L D { s with src := src', sr := some r', offset := s.offset + 0, srcCk := ck2 } o := by
        intro ck2
        refine ⟨r', rfl, by simp [hoff], ?_⟩
        obtain ⟨a, b, c, d⟩ := h2
        exact ⟨a, b, by simp [g5], d⟩
      have hlt := hrank0 1 (by omega)
      by_cases hssc : s.hasSSC = false
      · rw [if_pos hssc]
        refine ⟨[], none, _, none, rfl, by simp, fun hq => (hnq hq).elim, by simp, by simp, ⟨h2.2.2.2.1, by simp⟩, rfl, rfl,
          Or.inl ⟨rfl, hat _, ?_, by simp, fun _ => ⟨r', rfl, g3, g2, g5, g4⟩⟩⟩
        have := hlt s.hasSSC s.bytebuf (some k)
        simp only [List.length_nil] at this ⊢
        omega
      · rw [if_neg hssc]
        by_cases hsv : D.saveOK r'.st = false
        · rw [if_pos hsv]
          refine ⟨[], _, _, none, rfl, by simp, fun hq => (hnq hq).elim, by simp, by simp, ⟨h2.2.2.2.1, by simp⟩, rfl, rfl,
            Or.inr (Or.inr (Or.inr ⟨.saveFailed, rfl, by simp, by simp, by simp, by simp, rfl, hat _, Or.inl ⟨rfl, rfl, ?_, ?_,
              r', rfl, g3, g2, g5, g4⟩⟩))⟩
          · intro hnice
            rw [hnice.2.2 r'.st g4] at hsv
            cases hsv
          · have := hlt s.hasSSC s.bytebuf (some k)
            simp only [List.length_nil] at this ⊢
            omega
        · rw [if_neg hsv]
          have hckw : CkW L cfg D (Wrap.mkCkpt cfg D (s.offset + (([] : List Byte).length : Int)) k r') o := by
            obtain ⟨ri, a1, a2, a3, a4, a5⟩ := h2.2.2.2.2.1 g2
            refine ⟨k, oi, ri, r'.st, ?_, g4, g7, by omega, fun hp => (by have := g8' hp; omega), L.at_le a2,
              by simpa using h2.1, ?_, a5⟩
            · simp only [Wrap.mkCkpt, a1, h2.2.1]
              simp [hoff]
            · rw [g3] at a4
              simpa using a4
          have hlt2 := hlt s.hasSSC s.bytebuf (if cfg.clearsCk then none else some k)
          simp only [List.length_nil, Nat.add_zero] at hlt2
          obtain ⟨ckp, hckp⟩ : ∃ ckp, Wrap.mkCkpt cfg D (s.offset + (([] : List Byte).length : Int)) k r' = ckp := ⟨_, rfl⟩
          rw [hckp] at hckw ⊢
          refine ⟨[], (cb ckp c).2, _, some ckp, rfl, ?_, fun hq => (hnq hq).elim, by simp, by simp, ⟨h2.2.2.2.1, by simp⟩, rfl, rfl, ?_⟩
          · intro ck hck
            simp at hck
            subst hck
            exact hckw
          · cases hcb : (cb ckp c).2 with
            | none =>
              refine Or.inl ⟨rfl, hat _, ?_, by simp, fun _ => ⟨r', rfl, g3, g2, g5, g4⟩⟩
              simp only [List.length_nil] at hlt2 ⊢
              omega
            | some x =>
              refine Or.inr (Or.inr (Or.inl ⟨ckp, x, rfl, hcb, rfl, rfl, hat _, ?_, r', rfl, g3, g2, g5, g4⟩))
              simp only [List.length_nil] at hlt2 ⊢
              omega
    · cases h
    · simp at h; exact absurd h.symm h'
  · rw [if_neg hrs]
    refine ⟨bs, e, _, none, rfl, by simp, ?_, h3, h4, ⟨h2.2.2.2.1, by simp⟩, rfl, rfl, ?_⟩
    · intro hq
      obtain ⟨a, b, _⟩ := h5 hq.1 (hq.2 r hr)
      refine ⟨⟨rfl, a, ?_⟩, ?_⟩
      · intro r2 hr2
        simp at hr2; subst hr2; exact b
      · intro he
        rcases h6 with ⟨_, g2, _⟩ | ⟨h, _⟩ | ⟨h, _⟩ | ⟨x, h, _⟩
        · exact g2
        all_goals (rw [he] at h; cases h)
    · rcases h6 with ⟨g1, g2, g3⟩ | ⟨h, _⟩ | ⟨g1, g2, g3, g4⟩ | ⟨x, g1, g2, g3, g4, g5, g6, g7⟩
      · have hl : 0 < bs.length := List.length_pos_iff.mpr g2
        have := hrank0 0 g3 s.hasSSC s.bytebuf ck'
        refine Or.inl ⟨g1, ⟨r', rfl, hoff', h2⟩, ?_, fun _ => rfl, fun h => absurd h g2⟩
        omega
      · exact absurd h hrs
      · refine Or.inr (Or.inl ⟨g1, ⟨r', rfl, hoff', h2⟩, g2, rfl, g3, fun h => ⟨(g4 h).1, r', rfl, (g4 h).2.2, (g4 h).2.1⟩⟩)
      · refine Or.inr (Or.inr (Or.inr ⟨x, g1, g2, g3, g4, g5, rfl, ⟨r', rfl, hoff', h2⟩, Or.inr ⟨fun h => ⟨(g6 h).1, r', rfl, (g6 h).2.2, (g6 h).2.1⟩, fun h => g7 h.1⟩⟩))

/-- **A decompressing source over a lawful source is a lawful source of the decoded stream.** -/
def wrapLawful (hD : D.Law) (hB : (∀ st, D.ask st ≠ 0) ∨ LawfulByte L) (hF : L.rankMax + 2 ≤ F) :
    Lawful (wrapM cfg D I F) (D.decode D.start Z cz).1 (D.decode D.start Z cz).2 where
  Good := GoodW L D
  Live := LiveW L D
  At := AtW L D
  CkFor := CkW L cfg D
  Quiet := QuietW L D
  nice := NiceW L D
  lazy := D.eager = false
  exact := ExactW D
  early := False
  plain := False
  rank := rankW L D
  rankMax := (D.decode D.start Z cz).1.length + 2 * L.rankMax + 2
  at_live := by
    rintro s o ⟨r, h1, h2, h3⟩
    exact ⟨h3.2.2.2.1, by rw [h1]; simp⟩
  live_good := by
    rintro s ⟨h1, h2⟩
    exact ⟨L.live_good h1, fun h => absurd h h2⟩
  progress_spec := fun h => L.progress_spec h.1
  live_wantSave := by
    rintro s ⟨h1, h2⟩
    exact ⟨L.live_wantSave h1, h2⟩
  live_setSSC := by
    rintro s b ⟨h1, h2⟩
    exact ⟨L.live_setSSC true h1, h2⟩
  at_le := by
    rintro s o ⟨r, h1, h2, h3⟩
    exact h3.1
  ck_le := by
    rintro ck o ⟨sck, oi, ri, st, h1, h3, h4, h5, _, h6, h7, _⟩
    exact h7
  ck_off := by
    rintro ck o ⟨sck, oi, ri, st, h1, _⟩
    subst h1; rfl
  rank_le := by
    rintro s o ⟨r, h1, h2, h3⟩
    simp only [rankW, h1, srRank]
    have hw : (if r.want then 1 else 0) ≤ 1 := by split <;> omega
    cases he : r.err with
    | none =>
      obtain ⟨ri, _, h, _⟩ := h3.2.2.2.2.1 he
      have := L.rank_le h
      simp only [Option.isSome_none]
      simp
      omega
    | some e =>
      simp
      omega
  rank_wantSave := by
    intro s
    show rankW L D { s with src := I.wantSave s.src } = rankW L D s
    unfold rankW srRank
    simp only [L.rank_wantSave]
  rank_setSSC := by
    intro s b
    show rankW L D { s with hasSSC := b, src := I.setSSC true s.src } = rankW L D s
    unfold rankW srRank
    simp only [L.rank_setSSC]
  at_wantSave := by
    rintro s o ⟨r, h1, h2, h3⟩
    exact ⟨r, h1, h2, srInv_src h3 L.live_wantSave (fun _ => L.at_wantSave)⟩
  at_setSSC := by
    rintro s o b ⟨r, h1, h2, h3⟩
    exact ⟨r, h1, h2, srInv_src h3 (L.live_setSSC true) (fun _ => L.at_setSSC true)⟩
  good_wantSave := fun h => h.elim
  good_setSSC := by
    rintro s b ⟨h1, h2⟩
    exact ⟨L.good_setSSC true h1, fun h => L.quiet_setSSC true (h2 h)⟩
  quiet_setSSC := by
    rintro s b ⟨h1, h2⟩
    exact ⟨L.quiet_setSSC true h1, h2⟩
  resume_nil := by
    intro s hg
    rcases fromStart_spec (cfg := cfg) hD hB hF s hg.1 (fun h => Or.inl (hg.2 h)) with ⟨s', h1, h2, h3⟩ | h
    · exact Or.inl ⟨s', h1, h2, fun hq => h3 hq.1⟩
    · exact Or.inr h
  resume_ck := by
    intro s ck o hg hck
    rcases resumeW_spec (cfg := cfg) hD hB hF s ck o hg hck with ⟨o', s', h1, h2, hx, h3, h4⟩ | h
    · exact Or.inl ⟨o', s', h1, h2, hx, h3, fun _ => h4⟩
    · exact Or.inr h
  read_spec := by
    intro C cb s o n c hat hn
    obtain ⟨bs, e, s', em, h1, h2, h3, h4, h5, h6, _, _, h7⟩ := readW_spec (cfg := cfg) hD hB hF cb s o n c hat hn
    refine ⟨bs, e, s', em, h1, h2, fun hq => (h3 hq).1, h4, h5, h6, ?_⟩
    rcases h7 with ⟨a, b, c, _⟩ | ⟨a, b, c, _, d, f⟩ | ⟨ck, x, a, b, c, d, f, _⟩ | ⟨x, a, b, c, d, f, _, g, k⟩
    · exact Or.inl ⟨a, b, c⟩
    · exact Or.inr (Or.inl ⟨a, b, c, d, fun h => (f h).1⟩)
    · exact Or.inr (Or.inr (Or.inl ⟨ck, x, a, b, c, d, f⟩))
    · refine Or.inr (Or.inr (Or.inr ⟨x, a, b, c, d, f, fun hnice => ?_⟩))
      rcases k with ⟨_, _, k, _⟩ | ⟨k1, k2⟩
      · exact absurd hnice k
      · exact ⟨(k2 hnice).1, (k2 hnice).2, fun h => (k1 h).1⟩
  quiet_read := by
    intro C cb s o n c hat hn hq
    obtain ⟨bs, e, s', em, h1, h2, h3, _⟩ := readW_spec (cfg := cfg) hD hB hF cb s o n c hat hn
    show (Wrap.read cfg D I F cb n s c).1.2 = none → (Wrap.read cfg D I F cb n s c).1.1 ≠ []
    rw [h1]
    exact (h3 hq).2
  plain_exact := False.elim
  plain_read := False.elim
  resume_quiet := by
    intro _ s ck o x s' hg hck h
    rcases resumeW_spec (cfg := cfg) hD hB hF s ck o hg hck with ⟨o', s2, h1, _, _, _, h4⟩ | ⟨e, s2, h1, _⟩
    · have h : (Except.ok (o' : Int), s2) = (Except.ok x, s') := h1.symm.trans h
      obtain rfl : s2 = s' := congrArg Prod.snd h
      exact h4
    · have h : (Except.error e, s2) = (Except.ok x, s') := h1.symm.trans h
      exact absurd (congrArg Prod.fst h) nofun

/-- What `ReadByte` of a decompressing source needs from the decompressor: it keeps data and errors apart, it reads
single bytes at block boundaries, and between two block boundaries there is always some output. -/
structure Decomp.ByteLaw (D : Decomp) : Prop where
  notEager : D.eager = false
  askByte : ∀ st, D.canSave st = true → D.ask st = 0
  noSilent : ∀ st b st', D.canSave st = true → D.feed st b = some (st', []) → NoBoundary D st'

theorem read_of_noSave {C : Type} (cb : Callback C) (n : Nat) (s : WrapSt D I) (r : SR D) (c : C) (hr : s.sr = some r)
    (h : (srLoop D I F n r s.src s.srcCk).1.2 ≠ some .readyToSave) :
    Wrap.read cfg D I F cb n s c =
      ((srLoop D I F n r s.src s.srcCk).1,
       { s with sr := some (srLoop D I F n r s.src s.srcCk).2.1, src := (srLoop D I F n r s.src s.srcCk).2.2.1,
                srcCk := (srLoop D I F n r s.src s.srcCk).2.2.2,
                offset := s.offset + (srLoop D I F n r s.src s.srcCk).1.1.length }, c) := by
  unfold Wrap.read
  simp only [hr]
  rw [if_neg h]

theorem atW_store {s : WrapSt D I} {o : Nat} (bs : List Byte) (h : AtW L D s o) : AtW L D (Wrap.storeByte D I bs s) o := by
  obtain ⟨r, h1, h2, h3⟩ := h
  cases bs with
  | nil => exact ⟨r, h1, h2, h3⟩
  | cons b l => exact ⟨r, h1, h2, h3⟩

/-- The second read of `ReadByte`, right after a save: a byte, the end, or an error; never another save. -/
theorem readAfterSave (hD : D.Law) (hBL : D.ByteLaw) (hB : LawfulByte L) (hF : L.rankMax + 2 ≤ F)
    {C : Type} (cb : Callback C) (s : WrapSt D I) (o : Nat) (c : C) (h : AtW L D s o) (r : SR D) (hr : s.sr = some r)
    (hp : r.pend = []) (he : r.err = none) (hw : r.want = false) (hs : D.canSave r.st = true) :
    ∃ (bs : List Byte) (e : Option Err) (s' : WrapSt D I),
      Wrap.read cfg D I F cb 1 s c = ((bs, e), s', c) ∧ (QuietW L D s → QuietW L D s') ∧ LiveW L D s' ∧
      ((e = none ∧ (∃ b, bs = [b] ∧ ((D.decode D.start Z cz).1.drop o).head? = some b) ∧ AtW L D s' (o + 1) ∧
          rankW L D s' < rankW L D s) ∨
       (e = some .eof ∧ bs = [] ∧ AtW L D s' o ∧ o = (D.decode D.start Z cz).1.length ∧ (D.decode D.start Z cz).2 = true) ∨
       (∃ x, e = some x ∧ bs = [] ∧ x ≠ .eof ∧ x ≠ .panic ∧ x ≠ .diverge ∧ x ≠ .readyToSave ∧
          (NiceW L D → (D.decode D.start Z cz).2 = false ∧ o = (D.decode D.start Z cz).1.length))) := by
  have hat := h
  obtain ⟨r0, hr0, hoff, hinv⟩ := h
  rw [hr] at hr0
  simp at hr0; subst hr0
  have hns := srLoop_noSave (Or.inr hB) 1 o F r s.src s.srcCk hinv
    (fun _ _ => Or.inr ⟨hw, hBL.askByte _ hs, fun b st' hf => hBL.noSilent _ b st' hs hf⟩)
  have heq := read_of_noSave (cfg := cfg) cb 1 s r c hr hns
  obtain ⟨bs, e, s', em, h1, h2, h3, h4, h5, h6, h7, h8, h9⟩ := readW_spec (cfg := cfg) hD (Or.inr hB) hF cb s o 1 c hat (by omega)
  replace h3 := fun hq => (h3 hq).1
  obtain ⟨bs2, e2, r2, src2, ck2, g1, g2, g3, g4, g5, g6⟩ := srLoop_spec (Or.inr hB) 1 (by omega) o F r s.src s.srcCk hinv (by omega)
    (fun _ _ => by
      obtain ⟨ri, _, a, _⟩ := hinv.2.2.2.2.1 he
      have := L.rank_le a
      omega)
  rw [g1] at heq hns
  simp only [] at heq hns
  rw [h1] at heq
  simp only [Prod.mk.injEq] at heq
  obtain ⟨⟨rfl, rfl⟩, hss, hem⟩ := heq
  rw [hem] at h1
  refine ⟨bs, e, s', h1, fun hq => (h3 hq).2, h6, ?_⟩
  have hemn : ∀ P : Prop, (bs = [] → e = none → P) → P ∨ ¬ (bs = [] ∧ e = none) := by
    intro P hP
    by_cases hc : bs = [] ∧ e = none
    · exact Or.inl (hP hc.1 hc.2)
    · exact Or.inr hc
  rcases g6 with ⟨a, b, _⟩ | ⟨a, _⟩ | ⟨a, b, c1, d⟩ | ⟨x, a, b1, b2, b3, b4, d, f⟩
  · left
    rcases h9 with ⟨_, k2, k3, _⟩ | ⟨k, _⟩ | ⟨ck, x, _, _, k, _⟩ | ⟨x, k, _⟩
    · have hl : bs.length = 1 := by
        have := List.length_pos_iff.mpr b
        omega
      obtain ⟨y, hy⟩ := List.length_eq_one_iff.mp hl
      subst hy
      refine ⟨a, ⟨y, rfl, ?_⟩, k2, k3⟩
      simp only [List.length_singleton] at h5
      cases hl2 : (D.decode D.start Z cz).1.drop o with
      | nil => rw [hl2] at h5; simp at h5
      | cons z l => rw [hl2] at h5; simp at h5; simp [h5]
    · rw [a] at k; cases k
    · rw [a] at k; cases k
    · rw [a] at k; cases k
  · exact absurd a hns
  · right; left
    obtain ⟨d1, d2, d3⟩ := d hBL.notEager
    subst d1
    subst a
    refine ⟨rfl, rfl, ?_, by simpa using b, c1⟩
    rcases h9 with ⟨k, _⟩ | ⟨_, k, _⟩ | ⟨ck, x, _, _, k, _, kk, _⟩ | ⟨x, k, k', _⟩
    · cases k
    · simpa using k
    · exact kk
    · simp at k; exact absurd k.symm k'
  · right; right
    obtain ⟨d1, d2, d3⟩ := d hBL.notEager
    subst d1
    exact ⟨x, a, rfl, b1, b2, b3, b4, fun hn => by simpa using f hn.1⟩

/-- A read with nothing pending and a sticky error repeats that error. -/
theorem read_sticky {C : Type} (cb : Callback C) (n : Nat) (s : WrapSt D I) (r : SR D) (c : C) (x : Err) (hF : 0 < F)
    (hr : s.sr = some r) (hp : r.pend = []) (he : r.err = some x) (hx : x ≠ .readyToSave) :
    Wrap.read cfg D I F cb n s c = (([], some x), s, c) := by
  have hl : srLoop D I F n r s.src s.srcCk = (([], some x), r, s.src, s.srcCk) := by
    obtain ⟨f, rfl⟩ : ∃ f, F = f + 1 := ⟨F - 1, by omega⟩
    unfold srLoop
    simp [hp, he]
  unfold Wrap.read
  simp only [hr, hl]
  rw [if_neg (by simpa using hx)]
  simp [← hr]

theorem wrapLawfulByte (hD : D.Law) (hBL : D.ByteLaw) (hB : LawfulByte L) (hF : L.rankMax + 2 ≤ F) :
    LawfulByte (wrapLawful (cfg := cfg) hD (Or.inr hB) hF) where
  readByte_spec := by
    intro C cb s o c hat
    have hat : AtW L D s o := hat
    show ∃ (b : Byte) (e : Option Err) (s' : WrapSt D I) (em : Option Ckpt),
      Wrap.readByte cfg D I F cb s c = ((b, e), s', deliver cb em c) ∧
      (∀ ck, em = some ck → CkW L cfg D ck o) ∧ (QuietW L D s → em = none ∧ QuietW L D s') ∧ LiveW L D s' ∧
      ((e = none ∧ ((D.decode D.start Z cz).1.drop o).head? = some b ∧ AtW L D s' (o + 1) ∧ rankW L D s' < rankW L D s) ∨
       (e = some .eof ∧ AtW L D s' o ∧ o = (D.decode D.start Z cz).1.length ∧ (D.decode D.start Z cz).2 = true) ∨
       (∃ x, e = some x ∧ x ≠ .eof ∧ x ≠ .panic ∧ x ≠ .diverge ∧ x ≠ .readyToSave ∧
          (NiceW L D → (D.decode D.start Z cz).2 = false ∧ o = (D.decode D.start Z cz).1.length)))
    obtain ⟨r, hr, _⟩ := id hat
    unfold Wrap.readByte
    simp only [hr]
    obtain ⟨bs, e, s', em, h1, h2, h3, h4, h5, h6, h7, h8, h9⟩ := readW_spec (cfg := cfg) hD (Or.inr hB) hF cb s o 1 c hat (by omega)
    replace h3 := fun hq => (h3 hq).1
    rw [h1]
    simp only []
    -- the second read after a save
    have second : ∀ r, s'.sr = some r → r.pend = [] → r.err = none → r.want = false → D.canSave r.st = true →
        AtW L D s' o → rankW L D s' < rankW L D s →
      ∃ (b : Byte) (e : Option Err) (s2 : WrapSt D I),
        (let q2 := Wrap.read cfg D I F cb 1 s' (deliver cb em c)
         let s2 := Wrap.storeByte D I q2.1.1 q2.2.1
         ((s2.bytebuf, q2.1.2), s2, q2.2.2)) = ((b, e), s2, deliver cb em c) ∧
        (QuietW L D s' → QuietW L D s2) ∧ LiveW L D s2 ∧
        ((e = none ∧ ((D.decode D.start Z cz).1.drop o).head? = some b ∧ AtW L D s2 (o + 1) ∧ rankW L D s2 < rankW L D s) ∨
         (e = some .eof ∧ AtW L D s2 o ∧ o = (D.decode D.start Z cz).1.length ∧ (D.decode D.start Z cz).2 = true) ∨
         (∃ x, e = some x ∧ x ≠ .eof ∧ x ≠ .panic ∧ x ≠ .diverge ∧ x ≠ .readyToSave ∧
            (NiceW L D → (D.decode D.start Z cz).2 = false ∧ o = (D.decode D.start Z cz).1.length))) := by
      intro r hr hp he hw hs hat' hrk
      obtain ⟨bs2, e2, s2, g1, g2, g3, g4⟩ := readAfterSave (cfg := cfg) hD hBL hB hF cb s' o (deliver cb em c) hat' r hr hp he hw hs
      simp only [g1]
      rcases g4 with ⟨a, ⟨b, b1, b2⟩, c1, d⟩ | ⟨a, b, c1, d1, d2⟩ | ⟨x, a, b, c1, c2, c3, c4, d⟩
      · subst b1
        exact ⟨b, e2, { s2 with bytebuf := b }, rfl, g2, g3, Or.inl ⟨a, b2, atW_store [b] c1, by
          have : rankW L D { s2 with bytebuf := b } = rankW L D s2 := rfl
          omega⟩⟩
      · subst b
        exact ⟨s2.bytebuf, e2, s2, rfl, g2, g3, Or.inr (Or.inl ⟨a, c1, d1, d2⟩)⟩
      · subst b
        exact ⟨s2.bytebuf, e2, s2, rfl, g2, g3, Or.inr (Or.inr ⟨x, a, c1, c2, c3, c4, d⟩)⟩
    have hF0 : 0 < F := by omega
    have useSecond : bs = [] → AtW L D s' o → rankW L D s' < rankW L D s →
        (∃ r, s'.sr = some r ∧ r.pend = [] ∧ r.err = none ∧ r.want = false ∧ D.canSave r.st = true) →
        ∃ (b : Byte) (e' : Option Err) (s2 : WrapSt D I) (em' : Option Ckpt),
          (if bs = [] then
            (((Wrap.storeByte D I (Wrap.read cfg D I F cb 1 (Wrap.storeByte D I bs s') (deliver cb em c)).1.1
                (Wrap.read cfg D I F cb 1 (Wrap.storeByte D I bs s') (deliver cb em c)).2.1).bytebuf,
              (Wrap.read cfg D I F cb 1 (Wrap.storeByte D I bs s') (deliver cb em c)).1.2),
             Wrap.storeByte D I (Wrap.read cfg D I F cb 1 (Wrap.storeByte D I bs s') (deliver cb em c)).1.1
                (Wrap.read cfg D I F cb 1 (Wrap.storeByte D I bs s') (deliver cb em c)).2.1,
             (Wrap.read cfg D I F cb 1 (Wrap.storeByte D I bs s') (deliver cb em c)).2.2)
           else (((Wrap.storeByte D I bs s').bytebuf, e), Wrap.storeByte D I bs s', deliver cb em c))
            = ((b, e'), s2, deliver cb em' c) ∧
          (∀ ck, em' = some ck → CkW L cfg D ck o) ∧ (QuietW L D s → em' = none ∧ QuietW L D s2) ∧ LiveW L D s2 ∧
          ((e' = none ∧ ((D.decode D.start Z cz).1.drop o).head? = some b ∧ AtW L D s2 (o + 1) ∧ rankW L D s2 < rankW L D s) ∨
           (e' = some .eof ∧ AtW L D s2 o ∧ o = (D.decode D.start Z cz).1.length ∧ (D.decode D.start Z cz).2 = true) ∨
           (∃ x, e' = some x ∧ x ≠ .eof ∧ x ≠ .panic ∧ x ≠ .diverge ∧ x ≠ .readyToSave ∧
              (NiceW L D → (D.decode D.start Z cz).2 = false ∧ o = (D.decode D.start Z cz).1.length))) := by
      rintro rfl hat' hrk ⟨r, hr, hp, he, hw, hs⟩
      obtain ⟨b, e', s2, g1, g2, g3, g4⟩ := second r hr hp he hw hs hat' hrk
      rw [if_pos rfl]
      exact ⟨b, e', s2, em, g1, h2, fun hq => ⟨(h3 hq).1, g2 (h3 hq).2⟩, g3, g4⟩
    rcases h9 with ⟨a, b, c1, d1, d2⟩ | ⟨a, b, c1, c0, d, f⟩ | ⟨ck, x, a, b, c1, d, f, g, k⟩ | ⟨x, a, b1, b2, b3, b4, c0, g, k⟩
    · subst a
      by_cases hbs : bs = []
      · exact useSecond hbs (by subst hbs; simpa using b) c1 (d2 hbs)
      · rw [if_neg hbs]
        have hem := d1 hbs
        subst hem
        have hl : bs.length = 1 := by
          have := List.length_pos_iff.mpr hbs
          omega
        obtain ⟨y, hy⟩ := List.length_eq_one_iff.mp hl
        subst hy
        refine ⟨y, none, { s' with bytebuf := y }, none, rfl, by simp, h3, h6, Or.inl ⟨rfl, ?_, b, c1⟩⟩
        simp only [List.length_singleton] at h5
        cases hl2 : (D.decode D.start Z cz).1.drop o with
        | nil => rw [hl2] at h5; simp at h5
        | cons z l => rw [hl2] at h5; simp at h5; simp [h5]
    · subst a
      subst c0
      obtain ⟨f1, r, f2, f3, f4⟩ := f hBL.notEager
      subst f1
      rw [if_pos rfl]
      have := read_sticky (cfg := cfg) cb 1 s' r (deliver cb none c) .eof hF0 f2 f3 f4 (by simp)
      simp only [Wrap.storeByte]
      rw [this]
      exact ⟨s'.bytebuf, some .eof, s', none, rfl, by simp, h3, h6, Or.inr (Or.inl ⟨rfl, by simpa using b, by simpa using c1, d⟩)⟩
    · exact useSecond d f g k
    · subst c0
      rcases k with ⟨k1, k2, k3, k4, k5⟩ | ⟨k1, k2⟩
      · exact useSecond k2 (by subst k2; simpa using g) k4 k5
      · subst a
        obtain ⟨f1, r, f2, f3, f4⟩ := k1 hBL.notEager
        subst f1
        rw [if_pos rfl]
        have := read_sticky (cfg := cfg) cb 1 s' r (deliver cb none c) x hF0 f2 f3 f4 b4
        simp only [Wrap.storeByte]
        rw [this]
        exact ⟨s'.bytebuf, some x, s', none, rfl, by simp, h3, h6, Or.inr (Or.inr ⟨x, rfl, b1, b2, b3, b4, fun hn => by simpa using k2 hn⟩)⟩

end

end Savior
