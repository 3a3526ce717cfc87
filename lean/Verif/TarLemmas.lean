import Verif.Spec.Tar
import Verif.DiscardLemmas
import Verif.ZipResume
/-!
# Rules for reasoning about the tar extractor
-/

namespace Savior

section
variable {T : TarFmt} {clean : Bool}

/-- The parser does not care how its input is cut. -/
theorem nextSpec_feed (hT : T.Law) : ∀ (xs : List Byte) (st : T.St) (n : Nat) (Z : List Byte), T.want st = .more n → xs.length ≤ n →
    nextSpec T clean st (xs ++ Z) = nextSpec T clean (T.feed xs st) Z := by
  intro xs
  induction xs with
  | nil => intro st n Z _ _; rw [hT.feed_nil]; rfl
  | cons b xs ih =>
    intro st n Z hw hl
    simp only [List.length_cons] at hl
    have e1 : nextSpec T clean st (b :: xs ++ Z) = nextSpec T clean (T.feed [b] st) (xs ++ Z) := by
      rw [List.cons_append, nextSpec]
      simp only [hw]
    have e2 : T.feed (b :: xs) st = T.feed xs (T.feed [b] st) := by
      have := hT.feed_append (xs := [b]) (ys := xs) hw (by simp; omega)
      simpa using this
    rw [e1, e2]
    cases xs with
    | nil => rw [hT.feed_nil]; rfl
    | cons c xs =>
      simp only [List.length_cons] at hl
      obtain ⟨m, h1, h2⟩ := hT.ask_rest (xs := [b]) hw (by simp; omega)
      exact ih (T.feed [b] st) m Z h1 (by simp at h2 ⊢; omega)

theorem nextSpec_le (hT : T.Law) : ∀ (Y : List Byte) (st : T.St) (h : THdr) (st' : T.St) (Z : List Byte),
    nextSpec T clean st Y = some (some (h, st', Z)) → ∃ xs, Y = xs ++ Z := by
  intro Y
  induction Y with
  | nil =>
    intro st h st' Z hn
    rw [nextSpec] at hn
    cases hw : T.want st with
    | more n => simp only [hw] at hn; split at hn <;> simp at hn
    | hdr x => simp only [hw, Option.some.injEq, Prod.mk.injEq] at hn; exact ⟨[], by simp [hn.2.2]⟩
    | done => simp [hw] at hn
    | bad => simp [hw] at hn
  | cons b Y ih =>
    intro st h st' Z hn
    rw [nextSpec] at hn
    cases hw : T.want st with
    | more n =>
      simp only [hw] at hn
      obtain ⟨xs, e⟩ := ih _ _ _ _ hn
      exact ⟨b :: xs, by rw [e]; rfl⟩
    | hdr x => simp only [hw, Option.some.injEq, Prod.mk.injEq] at hn; exact ⟨[], by simp [hn.2.2]⟩
    | done => simp [hw] at hn
    | bad => simp [hw] at hn

/-- A delivered header came from a parser state. -/
theorem nextSpec_opened (hT : T.Law) : ∀ (Y : List Byte) (st : T.St) (h : THdr) (st' : T.St) (Z : List Byte),
    nextSpec T clean st Y = some (some (h, st', Z)) → ∃ st0, st' = T.opened st0 := by
  intro Y
  induction Y with
  | nil =>
    intro st h st' Z hn
    rw [nextSpec] at hn
    cases hw : T.want st with
    | more n => simp only [hw] at hn; split at hn <;> simp at hn
    | hdr x => simp only [hw, Option.some.injEq, Prod.mk.injEq] at hn; exact ⟨st, hn.2.1.symm⟩
    | done => simp [hw] at hn
    | bad => simp [hw] at hn
  | cons b Y ih =>
    intro st h st' Z hn
    rw [nextSpec] at hn
    cases hw : T.want st with
    | more n => simp only [hw] at hn; exact ih _ _ _ _ hn
    | hdr x => simp only [hw, Option.some.injEq, Prod.mk.injEq] at hn; exact ⟨st, hn.2.1.symm⟩
    | done => simp [hw] at hn
    | bad => simp [hw] at hn

end

section
variable {K : SinkM} {V : SaveCons} {S : SourceM} {Y : List Byte} {clean : Bool} {T : TarFmt}

theorem tarOnSave_nil (pr : Ckpt → Int × Int) (sck : Ckpt) (c : TC T K V) (h : c.cur = false) : tarOnSave T pr sck c = (c, none) := by
  unfold tarOnSave; simp [h]

theorem deliver_nil (pr : Ckpt → Int × Int) (em : Option Ckpt) (c : TC T K V) (h : c.cur = false) :
    deliver (tarOnSave T pr) em c = c := by
  cases em with
  | none => rfl
  | some ck => simp [deliver, tarOnSave_nil pr ck c h]

/-- What `tarOnSave` leaves alone. -/
theorem tarOnSave_same (pr : Ckpt → Int × Int) (sck : Ckpt) (c : TC T K V) :
    (tarOnSave T pr sck c).1.rd = c.rd ∧ (tarOnSave T pr sck c).1.roff = c.roff ∧ (tarOnSave T pr sck c).1.res = c.res ∧
    (tarOnSave T pr sck c).1.cur = c.cur ∧ (tarOnSave T pr sck c).1.xw.sink = c.xw.sink := by
  unfold tarOnSave
  split
  · simp
  · split
    · simp
    · simp only
      split <;> simp [XW.say]

theorem tarOnSave_err (pr : Ckpt → Int × Int) (sck : Ckpt) (c : TC T K V) : (tarOnSave T pr sck c).2 ≠ some .eof ∧
    (tarOnSave T pr sck c).2 ≠ some .unexpectedEOF := by
  unfold tarOnSave
  split
  · simp
  · split
    · simp
    · simp only
      split <;> simp

/-- `Next` over a lawful source finds the next header of the stream. `o0` is where the run started. -/
theorem tarNext_rule (hT : T.Law) (L : Lawful S Y clean) (pr : Ckpt → Int × Int) (o0 : Nat) :
    ∀ (fuel : Nat) (s : S.St) (c : TC T K V) (o : Nat), L.At s o → c.cur = false → c.roff = o →
    ∃ r s' c', tarNext S T (tarOnSave T pr) fuel s c = (r, s', c') ∧ c'.xw = c.xw ∧ c'.res = c.res ∧ c'.cur = false ∧ L.Live s' ∧
      (∀ h, r = .ok h → ∃ o', o ≤ o' ∧ L.At s' o' ∧ c'.roff = o' ∧
        nextSpec T clean c.rd (Y.drop o) = some (some (h, c'.rd, Y.drop o')) ∧ (o0 < o ∨ (o0 ≤ o ∧ L.Quiet s) → o0 < o' ∨ (o0 ≤ o' ∧ L.Quiet s')) ∧
        ((∀ n, T.want c.rd ≠ .more n) ∨ o < o') ∧ (L.Quiet s → L.Quiet s')) ∧
      (r = .error .eof → nextSpec T clean c.rd (Y.drop o) = some none) ∧
      (L.nice → clean = true → (if o < Y.length then L.rankMax + 1 else 0) + L.rank s + 1 < fuel → ∀ x, r = .error x → x ≠ .eof →
        nextSpec T clean c.rd (Y.drop o) = none) := by
  intro fuel
  induction fuel with
  | zero =>
    intro s c o hat hcur hro
    exact ⟨_, s, c, rfl, rfl, rfl, hcur, L.at_live hat, by simp, by simp, by omega⟩
  | succ fuel ih =>
    intro s c o hat hcur hro
    unfold tarNext
    cases hw : T.want c.rd with
    | hdr h =>
      refine ⟨_, s, _, rfl, rfl, rfl, hcur, L.at_live hat, ?_, by simp, by simp⟩
      intro h' hh
      cases hh
      refine ⟨o, Nat.le_refl _, hat, hro, ?_, id, Or.inl (by simp), id⟩
      cases Y.drop o <;> (rw [nextSpec]; simp only [hw])
    | done =>
      refine ⟨_, s, c, rfl, rfl, rfl, hcur, L.at_live hat, by simp, ?_, by simp⟩
      intro _
      cases Y.drop o <;> (rw [nextSpec]; simp only [hw])
    | bad =>
      refine ⟨_, s, c, rfl, rfl, rfl, hcur, L.at_live hat, by simp, by simp, ?_⟩
      intro _ _ _ _ _ _
      cases Y.drop o <;> (rw [nextSpec]; simp only [hw])
    | more n =>
      simp only
      have hn := hT.ask_pos hw
      obtain ⟨bs, e, s1, em, h1, h2, h3, h4, h5, h6, h7⟩ := L.read_spec (tarOnSave T pr) n c hat hn
      have hq1 := L.quiet_read (tarOnSave T pr) n c hat hn
      rw [deliver_nil pr em c hcur] at h1
      rw [h1] at hq1 ⊢
      simp only at hq1 ⊢
      have hol : o + bs.length ≤ Y.length := by
        have := congrArg List.length h5
        have := L.at_le hat
        simp only [List.length_take, List.length_drop] at *
        omega
      have hsplit : Y.drop o = bs ++ Y.drop (o + bs.length) := by
        conv => lhs; rw [← List.take_append_drop bs.length (Y.drop o)]
        rw [← h5, List.drop_drop]
      have hspec : nextSpec T clean c.rd (Y.drop o) = nextSpec T clean (T.feed bs c.rd) (Y.drop (o + bs.length)) := by
        rw [hsplit]; exact nextSpec_feed hT bs c.rd n _ hw h4
      have hcont : L.At s1 (o + bs.length) → (bs = [] → T.feed bs c.rd = c.rd) → (L.Quiet s → bs ≠ []) →
          (L.nice → clean = true → (if o < Y.length then L.rankMax + 1 else 0) + L.rank s + 1 < fuel + 1 →
            (if o + bs.length < Y.length then L.rankMax + 1 else 0) + L.rank s1 + 1 < fuel) →
          ∃ r s' c', tarNext S T (tarOnSave T pr) fuel s1 { c with rd := T.feed bs c.rd, roff := c.roff + bs.length } = (r, s', c') ∧
            c'.xw = c.xw ∧ c'.res = c.res ∧ c'.cur = false ∧ L.Live s' ∧
            (∀ h, r = .ok h → ∃ o', o ≤ o' ∧ L.At s' o' ∧ c'.roff = o' ∧
              nextSpec T clean c.rd (Y.drop o) = some (some (h, c'.rd, Y.drop o')) ∧
              (o0 < o ∨ (o0 ≤ o ∧ L.Quiet s) → o0 < o' ∨ (o0 ≤ o' ∧ L.Quiet s')) ∧ ((∀ m, TarWant.more n ≠ .more m) ∨ o < o') ∧ (L.Quiet s → L.Quiet s')) ∧
            (r = .error .eof → nextSpec T clean c.rd (Y.drop o) = some none) ∧
            (L.nice → clean = true → (if o < Y.length then L.rankMax + 1 else 0) + L.rank s + 1 < fuel + 1 → ∀ x, r = .error x → x ≠ .eof →
              nextSpec T clean c.rd (Y.drop o) = none) := by
        intro hat1 hnil hne hrk
        obtain ⟨r, s', c', g1, g2, g3, g4, g5, g6, g7, g8⟩ := ih s1 { c with rd := T.feed bs c.rd, roff := c.roff + bs.length }
          (o + bs.length) hat1 hcur (by simp [hro])
        refine ⟨r, s', c', g1, g2, g3, g4, g5, ?_, ?_, ?_⟩
        · intro h hr
          obtain ⟨o', a, b, c1, d, f, g, g'⟩ := g6 h hr
          refine ⟨o', by omega, b, c1, by rw [hspec]; exact d, ?_, ?_, fun hq => g' (h3 hq).2⟩
          · rintro (hlt | ⟨hle, hq⟩)
            · exact f (Or.inl (by omega))
            · have := hne hq
              have := List.length_pos_iff.mpr this
              exact f (Or.inl (by omega))
          · right
            rcases g with g | g
            · by_cases hb : bs = []
              · exfalso
                rw [hnil hb] at g
                exact g n hw
              · have := List.length_pos_iff.mpr hb
                omega
            · omega
        · intro hr; rw [hspec]; exact g7 hr
        · intro a b d x hx hxe
          rw [hspec]
          exact g8 a b (hrk a b d) x hx hxe
      have hnil : bs = [] → T.feed bs c.rd = c.rd := fun h => by rw [h, hT.feed_nil]
      cases e with
      | none =>
        simp only
        rcases h7 with ⟨_, hat', hrk⟩ | ⟨h, _⟩ | ⟨_, _, _, _, h, _⟩ | ⟨_, h, _⟩
        · refine hcont hat' hnil (fun hq => hq1 hq rfl) ?_
          intro _ _ h
          split <;> split at h <;> omega
        all_goals cases h
      | some x =>
        simp only
        by_cases hx : x = .eof
        · subst hx
          simp only [if_true]
          rcases h7 with ⟨h, _⟩ | ⟨_, hat', h8, h9, _⟩ | ⟨ck, y, g1, g2, g3, _⟩ | ⟨y, g1, g2, _⟩
          · cases h
          · by_cases hbn : bs.length = n
            · rw [if_pos hbn]
              have hbne : bs ≠ [] := by intro h; rw [h] at hbn; simp at hbn; omega
              refine hcont hat' hnil (fun _ => hbne) ?_
              intro _ _ h
              have hrl := L.rank_le hat'
              have : o < Y.length := by omega
              rw [if_pos this] at h
              rw [if_neg (by omega)]
              omega
            · rw [if_neg hbn]
              have hdrop : Y.drop (o + bs.length) = [] := List.drop_eq_nil_of_le (by omega)
              obtain ⟨m, hm, _⟩ := hT.ask_rest (xs := bs) hw (by omega)
              have hend : nextSpec T clean c.rd (Y.drop o) = if T.eofOK (T.feed bs c.rd) then some none else none := by
                rw [hspec, hdrop, nextSpec]
                simp only [hm, h9, Bool.true_and]
              split
              · rename_i hok
                refine ⟨_, s1, _, rfl, rfl, rfl, hcur, h6, by simp, ?_, by simp⟩
                intro _; rw [hend, if_pos hok]
              · rename_i hok
                refine ⟨_, s1, _, rfl, rfl, rfl, hcur, h6, by simp, by simp, ?_⟩
                intro _ _ _ _ _ _; rw [hend, if_neg hok]
          · rw [tarOnSave_nil pr ck c hcur] at g2; cases g2
          · simp at g1; exact absurd g1.symm g2
        · rw [if_neg hx]
          refine ⟨_, s1, _, rfl, rfl, rfl, hcur, h6, by simp, ?_, ?_⟩
          · intro h; simp at h; exact absurd h hx
          · intro hnice hcl _ _ _ _
            exfalso
            rcases h7 with ⟨h, _⟩ | ⟨h, _⟩ | ⟨ck, y, g1, g2, _⟩ | ⟨y, g1, g2, g3, g4, g5, g6⟩
            · cases h
            · simp at h; exact hx h
            · rw [tarOnSave_nil pr ck c hcur] at g2; cases g2
            · have := (g6 hnice).1; rw [hcl] at this; cases this

/-- The tar reader is `k = o - z0` bytes into the member that starts at `z0` with state `st0`. -/
structure InMember (T : TarFmt) (st0 : T.St) (z0 : Nat) (R : List Entry) (c : TC T K V) (o : Nat) : Prop where
  start : z0 ≤ o
  stop : o ≤ z0 + T.rem st0
  rd : c.rd = T.take (o - z0) st0
  roff : c.roff = o
  res : c.res = R
  cur : c.cur = true

/-- What is known about save requests: if `Qt` (no request was pending at the start of the run, at `o0`), none can be
pending at `o0` itself, nor ever if the consumer never asks. -/
def Phase (L : Lawful S Y clean) (V : SaveCons) (Qt : Prop) (o0 : Nat) (s : S.St) (o : Nat) : Prop :=
  o0 ≤ o ∧ (Qt → (o0 < o ∨ L.Quiet s) ∧ ((¬ ∃ n u, (V.shouldSave n u).1 = true) → L.Quiet s))

/-- Invariant rule for `copier.Do` as the tar extractor uses it. -/
theorem tarCopy_rule (hT : T.Law) (L : Lawful S Y clean) (pr : Ckpt → Int × Int) (Qt : Prop) (o0 : Nat) (st0 : T.St) (z0 : Nat) (R : List Entry)
    (Inv : Nat → XW K V → Prop) (Bad : XW K V → Prop)
    (hsave : ∀ o (c : TC T K V) sck, Inv o c.xw → InMember T st0 z0 R c o → o0 ≤ o →
      (Qt → o0 < o ∧ ∃ n u, (V.shouldSave n u).1 = true) → L.CkFor sck o → c.xw.stop = false → Inv o (tarOnSave T pr sck c).1.xw)
    (hwrite : ∀ o w bs, Inv o w → bs = (Y.drop o).take bs.length → o + bs.length ≤ Y.length → o + bs.length ≤ z0 + T.rem st0 → z0 ≤ o →
      ((w.write bs).1.2 = none → Inv (o + bs.length) (w.write bs).2) ∧ ((w.write bs).1.2 ≠ none → Bad (w.write bs).2))
    (hshould : ∀ o w n, Inv o w → Inv o { w with cons := (V.shouldSave n w.cons).2 })
    (hemit : ∀ o w p, Inv o w → Inv o (w.say (.progress p))) :
    ∀ (fuel counter : Nat) (s : S.St) (c : TC T K V) (o : Nat), L.At s o → Inv o c.xw → InMember T st0 z0 R c o → Phase L V Qt o0 s o →
    ∃ r s' c' ev, copyLoop (tarIO S T pr) fuel counter (s, c) = (r, (s', c'), ev) ∧ L.Live s' ∧
      ((∃ o', o ≤ o' ∧ o' ≤ Y.length ∧ Inv o' c'.xw ∧ InMember T st0 z0 R c' o' ∧
         (r = none → L.At s' o' ∧ Phase L V Qt o0 s' o' ∧ (c'.xw.stop = true ∨ o' = z0 + T.rem st0))) ∨
       (Bad c'.xw ∧ r ≠ none)) ∧
      ((∀ o c sck, Inv o c.xw → InMember T st0 z0 R c o → (tarOnSave T pr sck c).2 = none) → L.nice → clean = true →
        z0 + T.rem st0 ≤ Y.length → L.rank s < fuel → r ≠ none → Bad c'.xw) := by
  intro fuel
  induction fuel with
  | zero =>
    intro counter s c o hat hinv him _
    exact ⟨_, s, c, _, rfl, L.at_live hat, Or.inl ⟨o, Nat.le_refl _, L.at_le hat, hinv, him, by simp⟩, fun _ _ _ _ h => by omega⟩
  | succ fuel ih =>
    intro counter s c o hat hinv him hph
    unfold copyLoop
    by_cases hst : c.xw.stop = true
    · have : (tarIO (K := K) (V := V) S T pr).stopped (s, c) = true := hst
      simp only [this, if_true]
      exact ⟨_, s, c, _, rfl, L.at_live hat, Or.inl ⟨o, Nat.le_refl _, L.at_le hat, hinv, him, fun _ => ⟨hat, hph, Or.inl hst⟩⟩,
        fun _ _ _ _ _ h => absurd rfl h⟩
    · have hst' : c.xw.stop = false := by simpa using hst
      have : (tarIO (K := K) (V := V) S T pr).stopped (s, c) = false := hst'
      simp only [this, Bool.false_eq_true, if_false]
      -- what the read does
      have hread : ∃ (bs : List Byte) (e : Option Err) (s1 : S.St) (c1 : TC T K V),
          (tarIO (K := K) (V := V) S T pr).read (s, c) = ((bs, e), (s1, c1)) ∧ L.Live s1 ∧ bs = (Y.drop o).take bs.length ∧
          Inv o c1.xw ∧ InMember T st0 z0 R c1 (o + bs.length) ∧ o + bs.length ≤ Y.length ∧
          (e = none ∨ e = some .eof → L.At s1 (o + bs.length)) ∧
          (e = none → L.rank s1 < L.rank s ∧ (L.Quiet s → bs ≠ [])) ∧
          (L.Quiet s → L.Quiet s1) ∧
          (e = some .eof → o + bs.length = z0 + T.rem st0) ∧
          ((∀ o c sck, Inv o c.xw → InMember T st0 z0 R c o → (tarOnSave T pr sck c).2 = none) → L.nice → clean = true →
            z0 + T.rem st0 ≤ Y.length → e = none ∨ e = some .eof) := by
        have hr0 : (tarIO (K := K) (V := V) S T pr).read (s, c) = tarRead S T pr s c := rfl
        rw [hr0]
        unfold tarRead
        have hrem : T.rem c.rd = z0 + T.rem st0 - o := by
          rw [him.rd, hT.rem_take]; have := him.start; omega
        by_cases hz : T.rem c.rd = 0
        · rw [if_pos hz]
          refine ⟨[], some .eof, s, c, rfl, L.at_live hat, by simp, hinv, by simpa using him, by simpa using L.at_le hat, fun _ => by simpa using hat,
            by simp, id, ?_, fun _ _ _ _ => Or.inr rfl⟩
          intro _
          have := him.stop
          simp; omega
        · rw [if_neg hz]
          have hn : 0 < min 32768 (T.rem c.rd) := by omega
          obtain ⟨bs, e, s1, em, h1, h2, h3, h4, h5, h6, h7⟩ := L.read_spec (tarOnSave T pr) (min 32768 (T.rem c.rd)) c hat hn
          have hq1 := L.quiet_read (tarOnSave T pr) (min 32768 (T.rem c.rd)) c hat hn
          rw [h1] at hq1 ⊢
          simp only at hq1 ⊢
          have hol : o + bs.length ≤ Y.length := by
            have := congrArg List.length h5
            have := L.at_le hat
            simp only [List.length_take, List.length_drop] at *
            omega
          have hdel : Inv o (deliver (tarOnSave T pr) em c).xw ∧ InMember T st0 z0 R (deliver (tarOnSave T pr) em c) o := by
            cases em with
            | none => exact ⟨hinv, him⟩
            | some ck =>
              obtain ⟨a1, a2, a3, a4, _⟩ := tarOnSave_same pr ck c
              refine ⟨hsave o c ck hinv him hph.1 ?_ (h2 ck rfl) hst', ?_⟩
              · intro hqt
                obtain ⟨b1, b2⟩ := hph.2 hqt
                refine ⟨?_, ?_⟩
                · rcases b1 with b1 | b1
                  · exact b1
                  · have := (h3 b1).1; cases this
                · by_cases hex : ∃ n u, (V.shouldSave n u).1 = true
                  · exact hex
                  · have := (h3 (b2 hex)).1; cases this
              · show InMember T st0 z0 R (tarOnSave T pr ck c).1 o
                exact ⟨him.start, him.stop, by rw [a1]; exact him.rd, by rw [a2]; exact him.roff, by rw [a3]; exact him.res, by rw [a4]; exact him.cur⟩
          generalize deliver (tarOnSave T pr) em c = c1 at *
          obtain ⟨hinv1, him1⟩ := hdel
          have hbl : bs.length ≤ T.rem c.rd := by omega
          have him2 : InMember T st0 z0 R { c1 with rd := T.take bs.length c1.rd, roff := c1.roff + bs.length } (o + bs.length) := by
            refine ⟨by have := him.start; omega, by omega, ?_, ?_, him1.res, him1.cur⟩
            · show T.take bs.length c1.rd = _
              rw [him1.rd, hT.take_take]
              congr 1
              have := him.start; omega
            · show c1.roff + bs.length = _
              rw [him1.roff]; push_cast; rfl
          have hrem2 : T.rem (T.take bs.length c1.rd) = z0 + T.rem st0 - (o + bs.length) := by
            rw [him1.rd, hT.take_take, hT.rem_take]
            have := him.start; omega
          have hstop2 := him2.stop
          refine ⟨bs, _, s1, _, rfl, h6, h5, hinv1, him2, hol, ?_, ?_, fun hq => (h3 hq).2, ?_, ?_⟩
          · intro he
            cases e with
            | none =>
              rcases h7 with ⟨_, h, _⟩ | ⟨h, _⟩ | ⟨_, _, _, _, h, _⟩ | ⟨_, h, _⟩
              · exact h
              all_goals cases h
            | some x =>
              simp only at he
              by_cases hx : x = .eof
              · subst hx
                rcases h7 with ⟨h, _⟩ | ⟨_, h, _⟩ | ⟨ck, y, _, h9, h10, _⟩ | ⟨y, h8, h9, _⟩
                · cases h
                · exact h
                · rw [← h10] at h9; exact absurd h9 (tarOnSave_err pr ck c).1
                · simp at h8; exact absurd h8.symm h9
              · simp [hx] at he
          · intro he
            cases e with
            | none =>
              rcases h7 with ⟨_, _, h⟩ | ⟨h, _⟩ | ⟨_, _, _, _, h, _⟩ | ⟨_, h, _⟩
              · exact ⟨h, fun hq => hq1 hq rfl⟩
              all_goals cases h
            | some x => simp only at he; split at he <;> cases he
          · intro he
            cases e with
            | none =>
              simp only at he
              split at he
              · rename_i h; rw [hrem2] at h; omega
              · cases he
            | some x =>
              simp only at he
              split at he
              · simp at he
              · rename_i h
                simp only [Option.some.injEq] at he
                subst he
                simp only [true_and, Decidable.not_not] at h
                rw [hrem2] at h
                omega
          · intro hcb hnice hcl hlen
            cases e with
            | none =>
              simp only
              split
              · exact Or.inr rfl
              · exact Or.inl rfl
            | some x =>
              simp only
              rcases h7 with ⟨h, _⟩ | ⟨h, _, h8, _⟩ | ⟨ck, y, _, h9, h10, _⟩ | ⟨y, h8, h9, _, _, _, h10⟩
              · cases h
              · simp only [Option.some.injEq] at h
                subst h
                right
                have : T.rem (T.take bs.length c1.rd) = 0 := by rw [hrem2]; omega
                simp [this]
              · rw [hcb o c ck hinv him] at h9; cases h9
              · have := (h10 hnice).1; rw [hcl] at this; cases this
      obtain ⟨bs, e, s1, c1, hrd, hlive, h5, hinv1, him1, hol, hat1, hnone, hq1, heof, hnice1⟩ := hread
      rw [hrd]
      simp only
      have hw := hwrite o c1.xw bs hinv1 h5 hol him1.stop him.start
      have hwr : (tarIO (K := K) (V := V) S T pr).write bs (s1, c1) = ((c1.xw.write bs).1, (s1, { c1 with xw := (c1.xw.write bs).2 })) := rfl
      rw [hwr]
      simp only
      generalize c1.xw.write bs = Q at *
      obtain ⟨⟨m, we⟩, w2⟩ := Q
      simp only at hw ⊢
      cases we with
      | some x => exact ⟨_, _, _, _, rfl, hlive, Or.inr ⟨hw.2 (by simp), by simp⟩, fun _ _ _ _ _ _ => hw.2 (by simp)⟩
      | none =>
        have hinv2 := hw.1 rfl
        simp only
        have him2 : ∀ w : XW K V, InMember T st0 z0 R { c1 with xw := w } (o + bs.length) := fun w =>
          ⟨him1.start, him1.stop, him1.rd, him1.roff, him1.res, him1.cur⟩
        have hw3 : ∃ w3, (if decide (progressThreshold < counter + m) = true then
            (tarIO (K := K) (V := V) S T pr).emit (s1, { c1 with xw := w2 }) else (s1, { c1 with xw := w2 })) = (s1, { c1 with xw := w3 }) ∧
            Inv (o + bs.length) w3 := by
          split
          · exact ⟨_, rfl, hemit _ _ _ hinv2⟩
          · exact ⟨_, rfl, hinv2⟩
        obtain ⟨w3, e3, hinv3⟩ := hw3
        rw [e3]
        have hph1 : e = none ∨ e = some .eof → e ≠ none ∨ bs ≠ [] ∨ ¬ L.Quiet s → Phase L V Qt o0 s1 (o + bs.length) := by
          intro _ hb
          refine ⟨by have := hph.1; omega, fun hqt => ?_⟩
          obtain ⟨b1, b2⟩ := hph.2 hqt
          refine ⟨?_, fun h => hq1 (b2 h)⟩
          rcases b1 with b1 | b1
          · left; omega
          · right; exact hq1 b1
        cases e with
        | some x =>
          simp only
          refine ⟨_, _, _, _, rfl, hlive, Or.inl ⟨o + bs.length, by omega, hol, hinv3, him2 _, ?_⟩, ?_⟩
          · intro hr
            by_cases hx : x = .eof
            · subst hx
              exact ⟨hat1 (Or.inr rfl), hph1 (Or.inr rfl) (Or.inl (by simp)), Or.inr (heof rfl)⟩
            · simp [hx] at hr
          · intro hcb hn hcl hlen _ hr
            exfalso
            rcases hnice1 hcb hn hcl hlen with h | h
            · cases h
            · simp only [Option.some.injEq] at h; subst h; simp at hr
        | none =>
          simp only
          have hat' := hat1 (Or.inl rfl)
          obtain ⟨hrk, hne⟩ := hnone rfl
          have hsh : (tarIO (K := K) (V := V) S T pr).shouldSave bs.length (s1, { c1 with xw := w3 }) =
              ((V.shouldSave bs.length w3.cons).1, (s1, { c1 with xw := { w3 with cons := (V.shouldSave bs.length w3.cons).2 } })) := rfl
          rw [hsh]
          simp only
          have hinv4 := hshould (o + bs.length) w3 bs.length hinv3
          have hlt : Qt → o0 < o + bs.length := by
            intro hqt
            rcases (hph.2 hqt).1 with h | h
            · omega
            · have := List.length_pos_iff.mpr (hne h)
              have := hph.1
              omega
          have hfin : ∀ s2, L.At s2 (o + bs.length) → L.rank s2 = L.rank s1 → Phase L V Qt o0 s2 (o + bs.length) → ∀ ev0, ∃ r s' c' ev,
              ((fun q : Option Err × (S.St × TC T K V) × List CopyEv => (q.1, q.2.1, ev0 ++ q.2.2))
                (copyLoop (tarIO S T pr) fuel (if decide (progressThreshold < counter + m) = true then 0 else counter + m)
                  (s2, { c1 with xw := { w3 with cons := (V.shouldSave bs.length w3.cons).2 } }))) = (r, (s', c'), ev) ∧ L.Live s' ∧
              ((∃ o', o ≤ o' ∧ o' ≤ Y.length ∧ Inv o' c'.xw ∧ InMember T st0 z0 R c' o' ∧
                 (r = none → L.At s' o' ∧ Phase L V Qt o0 s' o' ∧ (c'.xw.stop = true ∨ o' = z0 + T.rem st0))) ∨
               (Bad c'.xw ∧ r ≠ none)) ∧
              ((∀ o c sck, Inv o c.xw → InMember T st0 z0 R c o → (tarOnSave T pr sck c).2 = none) → L.nice → clean = true →
                z0 + T.rem st0 ≤ Y.length → L.rank s < fuel + 1 → r ≠ none → Bad c'.xw) := by
            intro s2 hs2 hrk2 hph2 ev0
            obtain ⟨r, s', c', ev, g1, g2, g3, g4⟩ := ih (if decide (progressThreshold < counter + m) = true then 0 else counter + m) s2
              { c1 with xw := { w3 with cons := (V.shouldSave bs.length w3.cons).2 } } _ hs2 hinv4 (him2 _) hph2
            refine ⟨r, s', c', ev0 ++ ev, by rw [g1], g2, ?_, fun a b d f g => g4 a b d f (by omega)⟩
            rcases g3 with ⟨o', a, b⟩ | h
            · exact Or.inl ⟨o', by omega, b⟩
            · exact Or.inr h
          cases hsv : (V.shouldSave (bs.length : Int) w3.cons).1 with
          | true =>
            refine hfin _ (L.at_wantSave hat') (L.rank_wantSave s1) ?_ _
            exact ⟨by have := hph.1; omega, fun hqt => ⟨Or.inl (hlt hqt), fun h => absurd ⟨_, _, hsv⟩ h⟩⟩
          | false =>
            refine hfin _ hat' rfl ?_ _
            exact ⟨by have := hph.1; omega, fun hqt => ⟨Or.inl (hlt hqt), fun h => hq1 ((hph.2 hqt).2 h)⟩⟩

end
end Savior
