import Verif.SpacingZip
/-!
# Checkpoint spacing for tar over a decompressing source (for C91)
-/

namespace Savior
open Seek (Geo AtS)

section
variable {S : SourceM} {K : SinkM} {V : SaveCons} {u0 : V.St} {T G : Nat} {Z : TarFmt} {Ok : S.St → Prop} {due : S.St → Nat → Prop} {Ck : Ckpt → Prop}

/-- Every checkpoint handed to the save consumer has a source checkpoint of this kind, if any. -/
def TarCkOk (Ck : Ckpt → Prop) (ck : ECkpt) : Prop := ∀ sck, ck.srcCk = some sck → Ck sck

theorem tarOnSave_ckOk (pr : Ckpt → Int × Int) {sck : Ckpt} {c : TC Z K V} (hck : Ck sck) (h : SavedOk (TarCkOk Ck) c.xw.log) :
    SavedOk (TarCkOk Ck) (tarOnSave Z pr sck c).1.xw.log := by
  unfold tarOnSave
  split
  · exact h
  · split
    · exact h
    · dsimp only
      have hx : ∀ ck : ECkpt, ck.srcCk = some sck → TarCkOk Ck ck := by
        intro ck h1 sck' h2
        rw [h1] at h2; cases h2; exact hck
      split
      · exact h.save (hx _ rfl)
      · exact h.save (hx _ rfl)
      · exact h.save (hx _ rfl)

theorem tarIO_owing (H : OweSrc S G Ok due Ck) (pr : Ckpt → Int × Int) (hsv : ∀ st, Z.save st ≠ none) :
    OweIO (tarIO (K := K) (V := V) S Z pr) V u0 (T + G + 32768) G (fun w => Ok w.1 ∧ w.2.cur = true ∧ SavedOk (TarCkOk Ck) w.2.xw.log) (fun w => w.2.xw.log) (fun w => w.2.xw.cons)
      (fun w k => due w.1 k) where
  read w hok hre hsp := by
    obtain ⟨s, c⟩ := w
    obtain ⟨hok, hcur, hsd⟩ := hok
    replace hok : Ok s := hok
    replace hcur : c.cur = true := hcur
    replace hsd : SavedOk (TarCkOk Ck) c.xw.log := hsd
    replace hre : ConsReach V u0 c.xw.cons := hre
    replace hsp : Spread (T + G + 32768) c.xw.log := hsp
    have e1 : (tarIO (K := K) (V := V) S Z pr).read (s, c) = tarRead S Z pr s c := rfl
    rw [e1]
    unfold tarRead
    split
    · exact ⟨⟨hok, hcur, hsd⟩, by simp, Or.inl ⟨rfl, rfl, fun k hk => ⟨Nat.zero_le _, hk⟩⟩⟩
    · obtain ⟨a, b, d⟩ := H.read (tarOnSave (K := K) (V := V) Z pr) (min 32768 (Z.rem c.rd)) s c hok
      generalize S.read (tarOnSave (K := K) (V := V) Z pr) (min 32768 (Z.rem c.rd)) s c = R at *
      obtain ⟨⟨bs, e⟩, s', c'⟩ := R
      simp only at a b d ⊢
      rcases d with ⟨rfl, d⟩ | ⟨d1, sck, hck, rfl⟩
      · exact ⟨⟨a, hcur, hsd⟩, by omega, Or.inl ⟨rfl, rfl, d⟩⟩
      · have h : Spaced V u0 (T + G) c.xw.log c.xw.cons True := ⟨hsp, hre, fun _ => Or.inl trivial⟩
        obtain ⟨x, d2, d3, d4⟩ := tarOnSave_spaced (q := False) pr (sck := sck) hsv hcur h
        exact ⟨⟨a, x, tarOnSave_ckOk pr hck hsd⟩, by omega, Or.inr ⟨d1, d2, d3, fun hs => (d4 hs).resolve_left id⟩⟩
  write bs w hok := ⟨⟨hok.1, hok.2.1, hok.2.2.other fun l => by rw [savedCks_snoc]; simp⟩, ⟨_, _, rfl⟩, rfl, fun _ => id⟩
  emit w hok := ⟨⟨hok.1, hok.2.1, hok.2.2.other fun l => by rw [savedCks_snoc]; simp⟩, ⟨_, rfl⟩, rfl, fun _ => id⟩
  should n w hok := ⟨hok, rfl, rfl, rfl, fun _ => id⟩
  want w hok := by
    obtain ⟨a, b, c⟩ := H.want w.1 hok.1
    exact ⟨⟨a, hok.2⟩, rfl, rfl, b, c⟩

theorem tarNext_owing (H : OweSrc S G Ok due Ck) (pr : Ckpt → Int × Int) : ∀ (fuel : Nat) (s : S.St) (c : TC Z K V), Ok s → c.cur = false →
    Ok (tarNext S Z (tarOnSave Z pr) fuel s c).2.1 ∧ (tarNext S Z (tarOnSave Z pr) fuel s c).2.2.xw = c.xw := by
  intro fuel
  induction fuel with
  | zero => intro s c h _; exact ⟨h, rfl⟩
  | succ fuel ih =>
    intro s c h hcur
    unfold tarNext
    split
    · exact ⟨h, rfl⟩
    · exact ⟨h, rfl⟩
    · exact ⟨h, rfl⟩
    · rename_i n _
      obtain ⟨a, b, d⟩ := H.read (tarOnSave (K := K) (V := V) Z pr) n s c h
      have hc : (S.read (tarOnSave Z pr) n s c).2.2 = c := by
        have hn : ∀ sck, (tarOnSave Z pr sck c).1 = c := by intro sck; unfold tarOnSave; rw [hcur]; rfl
        rcases d with ⟨d, _⟩ | ⟨_, sck, _, d⟩
        · exact d
        · rw [d]; exact hn _
      generalize S.read (tarOnSave Z pr) n s c = R at *
      obtain ⟨⟨bs, e⟩, s', c'⟩ := R
      simp only at a hc ⊢
      subst hc
      have key := ih s' { c' with rd := Z.feed bs c'.rd, roff := c'.roff + bs.length } a hcur
      cases e with
      | none => exact key
      | some x =>
        simp only
        split
        · split
          · exact key
          · split <;> exact ⟨a, rfl⟩
        · exact ⟨a, rfl⟩

theorem tarFile_owing (H : OweSrc S G Ok due Ck) (hT : AsksWithin V u0 T) (pr : Ckpt → Int × Int) (hsv : ∀ st, Z.save st ≠ none) (F : Nat) (e : Entry) (s : S.St) (c : TC Z K V)
    (hs : Ok s) (hcur : c.cur = true) (h : HeldOk V u0 (T + G) (TarCkOk Ck) c.xw) :
    Ok (tarFile S Z pr F e s c).2.1 ∧ HeldOk V u0 (T + G) (TarCkOk Ck) (tarFile S Z pr F e s c).2.2.xw := by
  have ho := h.1.open (K.getWriter e c.xw.sink).2 e (K.getWriter e c.xw.sink).1 False
  have hl := copyLoop_owing hT (tarIO_owing (K := K) (V := V) (u0 := u0) (T := T) H pr hsv) F 0
    (s, { c with xw := { (({ c.xw with sink := (K.getWriter e c.xw.sink).2 }).say (.openW e (K.getWriter e c.xw.sink).1)) with stop := false } })
    ⟨hs, hcur, h.2.other fun l => by rw [savedCks_snoc]; simp⟩ ho.1 ho.2.1 (fun x => Or.inr ((ho.2.2 x).resolve_left id))
  have hcd : copyDo (tarIO (K := K) (V := V) S Z pr) F
      (s, { c with xw := ({ c.xw with sink := (K.getWriter e c.xw.sink).2 }).say (.openW e (K.getWriter e c.xw.sink).1) }) =
    copyLoop (tarIO (K := K) (V := V) S Z pr) F 0
      (s, { c with xw := { (({ c.xw with sink := (K.getWriter e c.xw.sink).2 }).say (.openW e (K.getWriter e c.xw.sink).1)) with stop := false } }) := rfl
  rw [← hcd] at hl
  unfold tarFile
  dsimp only at hl ⊢
  split
  · exact ⟨hs, ⟨ho.1, h.1.2⟩, h.2.other fun l => by rw [savedCks_snoc]; simp⟩
  · generalize copyDo (tarIO (K := K) (V := V) S Z pr) F _ = R at *
    obtain ⟨re, ⟨s', c'⟩, ev⟩ := R
    cases re with
    | some x => exact ⟨hl.1.1, hl.2, hl.1.2.2⟩
    | none => exact ⟨hl.1.1, ⟨hl.2.1.other (Or.inl (unsavedHere_snoc _ (.progress _))), hl.2.2⟩, hl.1.2.2.other fun l => by rw [savedCks_snoc]; simp⟩

theorem tarExtract_owing (H : OweSrc S G Ok due Ck) (hT : AsksWithin V u0 T) (pr : Ckpt → Int × Int) (hsv : ∀ st, Z.save st ≠ none) (F : Nat) (e : Entry) (s : S.St) (c : TC Z K V)
    (hs : Ok s) (h : HeldOk V u0 (T + G) (TarCkOk Ck) c.xw) :
    Ok (tarExtract S Z pr F e s c).2.1 ∧ HeldOk V u0 (T + G) (TarCkOk Ck) (tarExtract S Z pr F e s c).2.2.xw := by
  unfold tarExtract
  dsimp only
  have key : ∀ r : Option Err × S.St × TC Z K V, (Ok r.2.1 ∧ HeldOk V u0 (T + G) (TarCkOk Ck) r.2.2.xw) →
      (Ok (match r.1 with | some x => (some x, r.2) | none => (none, r.2.1,
        { r.2.2 with xw := { r.2.2.xw with ck := { r.2.2.xw.ck with entry := none, srcCk := none, data := none } } }) : Option Err × S.St × TC Z K V).2.1 ∧
      HeldOk V u0 (T + G) (TarCkOk Ck) (match r.1 with | some x => (some x, r.2) | none => (none, r.2.1,
        { r.2.2 with xw := { r.2.2.xw with ck := { r.2.2.xw.ck with entry := none, srcCk := none, data := none } } }) : Option Err × S.St × TC Z K V).2.2.xw) := by
    intro r hr
    split <;> exact hr
  refine key _ ?_
  split
  · exact ⟨hs, ⟨h.1.1.other (Or.inl (unsavedHere_snoc _ (.mkdir _ _))), h.1.2⟩, h.2.other fun l => by rw [savedCks_snoc]; simp⟩
  · exact ⟨hs, ⟨h.1.1.other (Or.inl (unsavedHere_snoc _ (.symlink _ _ _))), h.1.2⟩, h.2.other fun l => by rw [savedCks_snoc]; simp⟩
  · exact tarFile_owing H hT pr hsv F e s _ hs rfl h

theorem tarStep_owing (H : OweSrc S G Ok due Ck) (hT : AsksWithin V u0 T) (pr : Ckpt → Int × Int) (hsv : ∀ st, Z.save st ≠ none) (F : Nat) (idx : Int) (s : S.St) (c : TC Z K V)
    (hs : Ok s) (h : HeldOk V u0 (T + G) (TarCkOk Ck) c.xw) :
    Ok (tarStep S Z pr F idx s c).2.1 ∧ HeldOk V u0 (T + G) (TarCkOk Ck) (tarStep S Z pr F idx s c).2.2.xw := by
  unfold tarStep
  dsimp only
  split
  · exact tarExtract_owing H hT pr hsv F _ s _ hs h
  · obtain ⟨a, b⟩ := tarNext_owing (K := K) (V := V) H pr F s { c with cur := false, xw := { c.xw with ck := { c.xw.ck with entryIndex := idx } } } hs rfl
    generalize tarNext S Z (tarOnSave Z pr) F s { c with cur := false, xw := { c.xw with ck := { c.xw.ck with entryIndex := idx } } } = N at *
    obtain ⟨r, s', c'⟩ := N
    simp only at a b ⊢
    have h' : HeldOk V u0 (T + G) (TarCkOk Ck) c'.xw := by rw [b]; exact h
    cases r with
    | error x => exact ⟨a, h'⟩
    | ok hd =>
      simp only
      split
      · exact ⟨a, h'⟩
      · exact tarExtract_owing H hT pr hsv F _ s' _ a h'

theorem tarLoop_owing (H : OweSrc S G Ok due Ck) (hT : AsksWithin V u0 T) (pr : Ckpt → Int × Int) (hsv : ∀ st, Z.save st ≠ none) (F : Nat) :
    ∀ (fuel : Nat) (idx : Int) (s : S.St) (c : TC Z K V), Ok s → HeldOk V u0 (T + G) (TarCkOk Ck) c.xw → HeldOk V u0 (T + G) (TarCkOk Ck) (tarLoop S Z pr F fuel idx s c).2.2.xw
  | 0, _, _, _, _, h => h
  | fuel + 1, idx, s, c, hs, h => by
    unfold tarLoop
    split
    · exact h
    · obtain ⟨a, b⟩ := tarStep_owing H hT pr hsv F idx s c hs h
      dsimp only
      split
      · exact b
      · exact b
      · exact tarLoop_owing H hT pr hsv F fuel (idx + 1) _ _ a b

/-- A run from the beginning or from a checkpoint of another run. -/
theorem tarResume_owing (H : OweSrc S G Ok due Ck) (pr : Ckpt → Int × Int) (hsv : ∀ st, Z.save st ≠ none) (F : Nat) (src : S.St) (Pre : S.St → Prop)
    (hpre : ∀ {C : Type} (cb : Callback C) n s c, Pre s → Pre (S.read cb n s c).2.1) (hset : ∀ s, Pre s → Ok (S.setSSC true s))
    (hsrc : ∀ sck o s', (∀ k, sck = some k → Ck k) → S.resume sck src = (.ok o, s') → Pre s')
    (ck : Option ECkpt) (hck : ∀ c, ck = some c → TarCkOk Ck c) (k : K.St) (u : V.St)
    (hT : AsksWithin V u T) : Spread (T + G + 32768) (tarResume S Z pr F K V ck src k u).2.2.log ∧ SavedOk (TarCkOk Ck) (tarResume S Z pr F K V ck src k u).2.2.log := by
  have hw : ∀ c, HeldOk V u (T + G) (TarCkOk Ck) (tarWorld (K := K) (V := V) c k u) := fun c => ⟨⟨.nil, .start⟩, nofun⟩
  have hb : HeldOk V u (T + G) (TarCkOk Ck) (tarBegin (K := K) S Z F ck src k u).2.2.xw ∧
      ((tarBegin (K := K) (V := V) S Z F ck src k u).1 = none → Pre (tarBegin (K := K) (V := V) S Z F ck src k u).2.1) := by
    have hf : HeldOk V u (T + G) (TarCkOk Ck) (tarFresh (K := K) S Z src k u).2.2.xw ∧
        ((tarFresh (K := K) (V := V) S Z src k u).1 = none → Pre (tarFresh (K := K) (V := V) S Z src k u).2.1) := by
      unfold tarFresh
      dsimp only
      generalize hq : S.resume none src = q at *
      obtain ⟨r, s'⟩ := q
      cases r with
      | error x => exact ⟨hw _, nofun⟩
      | ok o => exact ⟨hw _, fun _ => hsrc none o s' nofun hq⟩
    unfold tarBegin
    split
    · rename_i c
      split
      · unfold tarAgain
        dsimp only
        generalize hq : S.resume c.srcCk src = q at *
        obtain ⟨r, s'⟩ := q
        cases r with
        | error x => exact ⟨hw _, nofun⟩
        | ok o =>
          simp only
          have hs' : Pre s' := hsrc c.srcCk o s' (hck c rfl) hq
          rename_i tck _
          have hd : Pre (if o < tck.roff then discard S (fun _ c => (c, none)) F (tck.roff - o) s' () else (none, s', ()) : Option Err × S.St × Unit).2.1 := by
            split
            · exact discard_keeps (S := S) (fun _ c => (c, none)) Pre (fun n s c hx => hpre _ n s c hx) F _ s' () hs'
            · exact hs'
          generalize (if o < tck.roff then discard S (fun _ c => (c, none)) F (tck.roff - o) s' () else (none, s', ()) : Option Err × S.St × Unit) = d at *
          obtain ⟨de, d1, _⟩ := d
          cases de with
          | some x => exact ⟨hw _, nofun⟩
          | none =>
            simp only
            split
            · exact ⟨hw _, nofun⟩
            · exact ⟨hw _, fun _ => hd⟩
      · exact hf
    · exact hf
  unfold tarResume
  dsimp only
  generalize tarBegin (K := K) S Z F ck src k u = b at *
  obtain ⟨b1, b2, b3⟩ := b
  cases b1 with
  | some x => exact ⟨hb.1.1.1, hb.1.2⟩
  | none =>
    simp only
    have := tarLoop_owing H hT pr hsv F F b3.xw.ck.entryIndex (S.setSSC true b2) b3 (hset _ (hb.2 rfl)) hb.1
    split <;> exact ⟨this.1.1, this.2⟩

end

/-- tar over a decompressing source over a file, from the beginning or from a checkpoint of another run. -/
theorem tarResume_wrapped (g : Geo) (D : Decomp) (G : Nat) {K : SinkM} {V : SaveCons} {T : Nat} {Z : TarFmt} (cfg : WrapCfg) (hask : ∀ st, D.ask st = 0)
    (hsv : ∀ st, D.canSave st = true → D.saveOK st = true) (hde : ∀ st, D.canSave st = true → D.dec (D.enc st) = some st ∨ D.dec (D.enc st) = none)
    (hz : ∀ st, Z.save st ≠ none) (pr : Ckpt → Int × Int) (F : Nat) (s : WrapSt D seekM) (hg : Seek.GoodS g s.src) (hst : Strides D G D.start g.stream)
    (ck : Option ECkpt) (hck : ∀ c, ck = some c → TarCkOk (FlateCk D G g.stream) c) (k : K.St) (u : V.St) (hT : AsksWithin V u T) :
    Spread (T + 2 * G + 32768) (tarResume (wrapM cfg D seekM F) Z pr F K V ck s k u).2.2.log ∧
    SavedOk (TarCkOk (FlateCk D G g.stream)) (tarResume (wrapM cfg D seekM F) Z pr F K V ck s k u).2.2.log :=
  tarResume_owing (wrap_owing g D G cfg hask hsv F) pr hz F s (FlatePre g D G) (fun cb n s c h => wrapRead_pre g D G hask cfg F cb n s c h)
    (fun _ h => FlatePre.setSSC g D G (cfg := cfg) (F := F) h)
    (fun sck o s' hx h => wrapResume_owes g D G cfg hask hde F s hg hst sck hx o s' h) ck hck k u hT

end Savior
