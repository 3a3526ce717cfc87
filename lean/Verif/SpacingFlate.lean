import Verif.Spacing
import Verif.SeekLemmas
import Verif.Spec.Zip
import Verif.ZipResume
/-!
# Checkpoint spacing for compressed members (for C91)
-/

namespace Savior
open Seek (Geo AtS)

section
variable {V : SaveCons} {u0 : V.St} {T : Nat}

theorem AsksWithin.mono {T' : Nat} (h : AsksWithin V u0 T) (hl : T ≤ T') : AsksWithin V u0 T' := fun v ns w a b => Nat.le_trans (h v ns w a b) hl

/-- What `copier.Do` needs to know when requests are served with some delay: `owes w k` if at most `k` bytes will be read before the
next checkpoint. -/
structure OweIO {W : Type} (io : CopyIO W) (V : SaveCons) (u0 : V.St) (B G : Nat) (Ok : W → Prop) (lg : W → List Ev) (cs : W → V.St) (owes : W → Nat → Prop) : Prop where
  read : ∀ w, Ok w → ConsReach V u0 (cs w) → Spread B (lg w) → Ok (io.read w).2 ∧ (io.read w).1.1.length ≤ 32768 ∧
    ((lg (io.read w).2 = lg w ∧ cs (io.read w).2 = cs w ∧
        ∀ k, owes w k → (io.read w).1.1.length ≤ k ∧ owes (io.read w).2 (k - (io.read w).1.1.length)) ∨
      ((io.read w).1.1 = [] ∧ Spread B (lg (io.read w).2) ∧ ConsReach V u0 (cs (io.read w).2) ∧
        (SyncsFine (lg (io.read w).2) → Tallied V u0 (cs (io.read w).2) (unsavedHere (lg (io.read w).2)))))
  write : ∀ bs w, Ok w → Ok (io.write bs w).2 ∧ (∃ m e, lg (io.write bs w).2 = lg w ++ [.write bs m e]) ∧ cs (io.write bs w).2 = cs w ∧
    ∀ k, owes w k → owes (io.write bs w).2 k
  emit : ∀ w, Ok w → Ok (io.emit w) ∧ (∃ p, lg (io.emit w) = lg w ++ [.progress p]) ∧ cs (io.emit w) = cs w ∧ ∀ k, owes w k → owes (io.emit w) k
  should : ∀ (n : Nat) w, Ok w → Ok (io.shouldSave n w).2 ∧ lg (io.shouldSave n w).2 = lg w ∧
    (io.shouldSave n w).1 = (V.shouldSave n (cs w)).1 ∧ cs (io.shouldSave n w).2 = (V.shouldSave n (cs w)).2 ∧ ∀ k, owes w k → owes (io.shouldSave n w).2 k
  want : ∀ w, Ok w → Ok (io.wantSave w) ∧ lg (io.wantSave w) = lg w ∧ cs (io.wantSave w) = cs w ∧ owes (io.wantSave w) G ∧
    ∀ k, owes w k → owes (io.wantSave w) k

theorem copyLoop_owing {W : Type} {io : CopyIO W} {G : Nat} {Ok : W → Prop} {lg : W → List Ev} {cs : W → V.St} {owes : W → Nat → Prop}
    (hT : AsksWithin V u0 T) (H : OweIO io V u0 (T + G + 32768) G Ok lg cs owes) :
    ∀ (fuel counter : Nat) (w : W), Ok w → Spread (T + G + 32768) (lg w) → ConsReach V u0 (cs w) →
      (SyncsFine (lg w) → (∃ k, owes w k ∧ unsavedHere (lg w) + k ≤ T + G + 32768) ∨ Tallied V u0 (cs w) (unsavedHere (lg w))) →
      Ok (copyLoop io fuel counter w).2.1 ∧ Spread (T + G + 32768) (lg (copyLoop io fuel counter w).2.1) ∧ ConsReach V u0 (cs (copyLoop io fuel counter w).2.1) := by
  intro fuel
  induction fuel with
  | zero => intro counter w hok h1 h2 _; exact ⟨hok, h1, h2⟩
  | succ fuel ih =>
    intro counter w hok h1 h2 h3
    unfold copyLoop
    by_cases hst : io.stopped w = true
    · simp only [hst, if_true]; exact ⟨hok, h1, h2⟩
    · simp only [hst, Bool.false_eq_true, if_false]
      obtain ⟨r1, r2, r3⟩ := H.read w hok h2 h1
      generalize io.read w = R at *
      obtain ⟨⟨bs, e⟩, w1⟩ := R
      simp only at r1 r2 r3 ⊢
      -- after the read, before the write: room for the bytes read
      have hb : Spread (T + G + 32768) (lg w1) ∧ ConsReach V u0 (cs w1) ∧ (SyncsFine (lg w1) →
          (∃ k, owes w1 k ∧ unsavedHere (lg w1) + bs.length + k ≤ T + G + 32768) ∨ Tallied V u0 (cs w1) (unsavedHere (lg w1))) := by
        rcases r3 with ⟨a, b, c⟩ | ⟨a, b, c, d⟩
        · rw [a, b]
          refine ⟨h1, h2, fun hs => ?_⟩
          rcases h3 hs with ⟨k, x, y⟩ | x
          · obtain ⟨c1, c2⟩ := c k x
            exact Or.inl ⟨_, c2, by omega⟩
          · exact Or.inr x
        · exact ⟨b, c, fun hs => Or.inr (d hs)⟩
      clear h1 h2 h3 r3
      obtain ⟨h1, h2, h3⟩ := hb
      obtain ⟨m1, ⟨m, x, m2⟩, m3, m4⟩ := H.write bs w1 r1
      generalize io.write bs w1 = M at *
      obtain ⟨⟨k, we⟩, w2⟩ := M
      simp only at m1 m2 m3 m4 ⊢
      have hu : unsavedHere (lg w2) = unsavedHere (lg w1) + bs.length := by rw [m2, unsavedHere_snoc]
      have hsp : Spread (T + G + 32768) (lg w2) := by
        rw [m2]
        refine h1.snoc fun hs => ?_
        rw [← m2, hu]
        rcases h3 hs with ⟨j, _, a⟩ | a
        · omega
        · have := a.le hT; omega
      have hre : ConsReach V u0 (cs w2) := by rw [m3]; exact h2
      cases we with
      | some x => exact ⟨m1, hsp, hre⟩
      | none =>
        simp only
        obtain ⟨w3, hw3, q1, q2, q3, q4, q5⟩ : ∃ w3, (if decide (progressThreshold < counter + k) = true then io.emit w2 else w2) = w3 ∧ Ok w3 ∧
            (SyncsFine (lg w3) → SyncsFine (lg w2)) ∧ (Spread (T + G + 32768) (lg w3) ∧ unsavedHere (lg w3) = unsavedHere (lg w2)) ∧ cs w3 = cs w2 ∧
            ∀ k, owes w2 k → owes w3 k := by
          refine ⟨_, rfl, ?_⟩
          split
          · obtain ⟨a, ⟨p, b⟩, c, d⟩ := H.emit w2 m1
            refine ⟨a, fun h2 e he => h2 e (by rw [b]; exact List.mem_append_left _ he), ?_, c, d⟩
            rw [b]
            have : unsavedHere (lg w2 ++ [.progress p]) = unsavedHere (lg w2) := by rw [unsavedHere_snoc]
            exact ⟨hsp.other (Or.inl this), this⟩
          · exact ⟨m1, id, ⟨hsp, rfl⟩, rfl, fun _ => id⟩
        rw [hw3]
        cases e with
        | some y => exact ⟨q1, q3.1, by rw [q4]; exact hre⟩
        | none =>
          simp only
          obtain ⟨s1, s2, s3, s4, s5⟩ := H.should bs.length w3 q1
          generalize io.shouldSave bs.length w3 = Sv at *
          obtain ⟨ans, w4⟩ := Sv
          simp only at s1 s2 s3 s4 s5 ⊢
          have hsp4 : Spread (T + G + 32768) (lg w4) := by rw [s2]; exact q3.1
          have hre4 : ConsReach V u0 (cs w4) := by rw [s4]; refine .ask _ ?_; rw [q4]; exact hre
          have hs41 : SyncsFine (lg w4) → SyncsFine (lg w1) := by
            intro hs
            rw [s2] at hs
            have hs2 := q2 hs
            exact fun e he => hs2 e (by rw [m2]; exact List.mem_append_left _ he)
          have hu4 : unsavedHere (lg w4) = unsavedHere (lg w1) + bs.length := by rw [s2, q3.2, hu]
          cases ans with
          | true =>
            simp only [if_true]
            obtain ⟨t1, t2, t3, t4, t5⟩ := H.want w4 s1
            refine ih _ _ t1 (by rw [t2]; exact hsp4) (by rw [t3]; exact hre4) fun hs => Or.inl ?_
            rw [t2] at hs ⊢
            rw [hu4]
            rcases h3 (hs41 hs) with ⟨j, a, b⟩ | a
            · exact ⟨j, t5 _ (s5 _ (q5 _ (m4 _ a))), b⟩
            · have := a.le hT
              exact ⟨G, t4, by omega⟩
          | false =>
            simp only [Bool.false_eq_true, if_false]
            refine ih _ _ s1 hsp4 hre4 fun hs => ?_
            rw [hu4]
            rcases h3 (hs41 hs) with ⟨j, a, b⟩ | a
            · exact Or.inl ⟨j, s5 _ (q5 _ (m4 _ a)), b⟩
            · right
              rw [s4, q4, m3]
              rw [q4, m3] at s3
              exact a.no _ s3.symm

end

/-! ## The decompressor over a seek source -/

section
variable (g : Geo) (D : Decomp) (G : Nat)

/-- Bytes to the next place to save at, if not there already. -/
def toGo (st : D.St) (z : List Byte) : Nat := if D.canSave st then 0 else stride D st z

/-- A decompressor reading the member `g.stream`. -/
def FlateInv (r : SR D) (src : SeekSt) (ck : Option Ckpt) : Prop :=
  (r.want = true → ∃ oi : Nat, ck = some (.plain oi) ∧ (oi : Int) ≤ r.roff ∧ oi ≤ g.stream.length) ∧ r.pend.length ≤ G ∧ r.err ≠ some .readyToSave ∧
  (r.err = none → ∃ o : Nat, r.roff = o ∧ AtS g src o ∧ Strides D G r.st (g.stream.drop o))

/-- At most `k` bytes will come out of it before it can be saved. -/
def FlateOwes (r : SR D) (src : SeekSt) (k : Nat) : Prop :=
  (r.err ≠ none ∧ r.pend.length ≤ k) ∨ (r.err = none ∧ src.wantSave = true ∧ r.pend.length + G ≤ k) ∨
  (r.err = none ∧ r.want = true ∧ ∃ o, AtS g src o ∧ r.pend.length + toGo D r.st (g.stream.drop o) ≤ k)

theorem atS_fun {g : Geo} {s : SeekSt} {o o' : Nat} (h : AtS g s o) (h' : AtS g s o') : o = o' := by
  have := h.2.1; have := h'.2.1; omega

theorem toGo_le {st : D.St} {z : List Byte} (h : Strides D G st z) : toGo D st z ≤ G := by
  unfold toGo
  split
  · omega
  · cases z with
    | nil => simp [stride]
    | cons b z => exact h.1

/-- One request of a decompressor that reads byte by byte. -/
theorem askByte (st : D.St) (hask : D.ask st = 0) (src : SeekSt) (ck : Option Ckpt) (o : Nat) (h : AtS g src o) :
    ∃ bs e src' ck' fired, askInner D seekM st src ck = ((bs, e), src', (ck', fired)) ∧ SeekSt.hasSSC src' = src.hasSSC ∧ (fired = true → ck' = some (.plain (o : Nat))) ∧
      (fired = false → ck' = ck) ∧
      ((∃ x, bs = [x] ∧ e = none ∧ g.stream.drop o = x :: g.stream.drop (o + 1) ∧ AtS g src' (o + 1) ∧ (src.hasSSC = true → fired = src.wantSave)) ∨
       (∃ y, bs = [] ∧ e = some y ∧ y ≠ .readyToSave)) := by
  obtain ⟨x, e, s', em, h1, h2, h3, h4, h5⟩ := Seek.readByte_spec g srCb src o (ck, false) h
  unfold askInner
  rw [hask]
  show ∃ bs e src' ck' fired, ((if (Seek.readByte srCb src (ck, false)).1.2 = none then [(Seek.readByte srCb src (ck, false)).1.1] else [], (Seek.readByte srCb src (ck, false)).1.2),
    (Seek.readByte srCb src (ck, false)).2) = ((bs, e), src', (ck', fired)) ∧ _
  rw [h1]
  simp only
  have hem : ∀ k, em = some k → k = .plain (o : Int) := by
    intro k hk
    rw [h2] at hk
    split at hk
    · cases hk
    · unfold Seek.emitted at hk
      split at hk
      · cases hk; rw [h.2.1]
      · cases hk
  have hd : ∃ ck' fired, deliver srCb em (ck, false) = (ck', fired) ∧ (fired = true → ck' = some (.plain (o : Int))) ∧ (fired = false → ck' = ck) ∧ fired = em.isSome := by
    cases em with
    | none => exact ⟨ck, false, rfl, nofun, fun _ => rfl, rfl⟩
    | some k => exact ⟨some k, true, rfl, fun _ => by rw [hem k rfl], nofun, rfl⟩
  obtain ⟨ck', fired, d1, d2, d3, d4⟩ := hd
  rw [d1]
  refine ⟨_, e, s', ck', fired, rfl, h3, d2, d3, ?_⟩
  rcases h5 with ⟨e1, e2, e3⟩ | ⟨e1, _⟩ | ⟨y, e1, _, _, _, e2, _⟩
  · left
    subst e1
    refine ⟨x, rfl, rfl, ?_, e3, fun hs => ?_⟩
    · cases hz : g.stream.drop o with
      | nil => rw [hz] at e2; cases e2
      | cons a t =>
        rw [hz] at e2
        cases e2
        congr 1
        have := congrArg List.tail hz
        rw [List.tail_drop] at this
        exact this.symm
    · have hne : o ≠ g.size := by
        have h6 : o + 1 ≤ g.stream.length := e3.2.2.1
        rw [Seek.stream_length] at h6
        omega
      rw [d4, h2, if_neg hne, Seek.emitted, hs]
      cases src.wantSave <;> rfl
  · subst e1; exact Or.inr ⟨_, rfl, rfl, nofun⟩
  · subst e1; exact Or.inr ⟨y, rfl, rfl, e2⟩

theorem absorb_fail (r : SR D) (y : Err) (fired : Bool) (hy : y ≠ .readyToSave) :
    (r.absorb [] (some y) fired).err ≠ none ∧ (r.absorb [] (some y) fired).err ≠ some .readyToSave ∧ (r.absorb [] (some y) fired).pend = [] := by
  unfold SR.absorb stickyErr Decomp.feedAll
  simp only [Bool.false_eq_true, if_false, and_true]
  split
  · simp
  · cases y <;> simp at hy ⊢
    split <;> simp

theorem absorb_byte (r : SR D) (x : Byte) (fired : Bool) :
    ((r.absorb [x] none fired).err ≠ none ∧ (r.absorb [x] none fired).err ≠ some .readyToSave ∧
      ((r.absorb [x] none fired).pend = [] ∨ D.fin r.st = false ∧ ∃ st', D.feed r.st x = some (st', (r.absorb [x] none fired).pend))) ∨
    ((r.absorb [x] none fired).err = none ∧ D.fin r.st = false ∧ (r.absorb [x] none fired).want = (r.want || fired) ∧
      D.feed r.st x = some ((r.absorb [x] none fired).st, (r.absorb [x] none fired).pend)) := by
  unfold SR.absorb Decomp.feedAll
  by_cases hf : D.fin r.st = true
  · simp [hf, stickyErr]
  · have hf' : D.fin r.st = false := by simpa using hf
    simp only [hf', Bool.false_eq_true, if_false]
    cases hfd : D.feed r.st x with
    | none => simp [stickyErr]
    | some p =>
      obtain ⟨st', out⟩ := p
      simp only [Decomp.feedAll, List.append_nil, stickyErr, Bool.false_eq_true, if_false]
      by_cases h2 : D.fin st' = true
      · simp [h2]
      · have h2' : D.fin st' = false := by simpa using h2
        simp [h2']

theorem srLoop_succ (f n : Nat) (r : SR D) (src : seekM.St) (ck : Option Ckpt) : srLoop D seekM (f + 1) n r src ck =
    if r.pend ≠ [] then
      ((r.pend.take n, if D.eager && (r.pend.drop n).isEmpty then r.err else none),
        { r with pend := r.pend.drop n, woff := r.woff + (r.pend.take n).length }, src, ck)
    else match r.err with
      | some e => (([], some e), r, src, ck)
      | none =>
        if r.want && D.canSave r.st then (([], some .readyToSave), { r with want := false }, src, ck)
        else srLoop D seekM f n (r.absorb (askInner D seekM r.st src ck).1.1 (askInner D seekM r.st src ck).1.2 (askInner D seekM r.st src ck).2.2.2)
          (askInner D seekM r.st src ck).2.1 (askInner D seekM r.st src ck).2.2.1 := rfl

/-- A checkpoint of a decompressing source over a file with the content `z`: a place to save at, from where it is never more than `G` bytes to the next. -/
def FlateCk (z : List Byte) (ck : Ckpt) : Prop := ∃ (tag : Tag) (off : Int) (oi : Nat) (co : Int) (ri : Nat) (wo : Int) (st : D.St),
  ck = .dec tag off (some (.plain oi)) co ⟨ri, wo, D.enc st⟩ ∧ D.canSave st = true ∧ oi ≤ ri ∧ ri ≤ z.length ∧ Strides D G st (z.drop ri)

theorem srLoop_owes (hask : ∀ st, D.ask st = 0) (n : Nat) : ∀ (f : Nat) (r : SR D) (src : seekM.St) (ck : Option Ckpt), FlateInv g D G r src ck →
    (srLoop D seekM f n r src ck).1.1.length ≤ n ∧ SeekSt.hasSSC (srLoop D seekM f n r src ck).2.2.1 = SeekSt.hasSSC src ∧
    FlateInv g D G (srLoop D seekM f n r src ck).2.1 (srLoop D seekM f n r src ck).2.2.1 (srLoop D seekM f n r src ck).2.2.2 ∧
    (((srLoop D seekM f n r src ck).1.2 = some .readyToSave ∧ (srLoop D seekM f n r src ck).1.1 = [] ∧
        (∃ oi ri : Nat, (srLoop D seekM f n r src ck).2.2.2 = some (.plain oi) ∧ (srLoop D seekM f n r src ck).2.1.roff = ri ∧ oi ≤ ri ∧ ri ≤ g.stream.length ∧
          Strides D G (srLoop D seekM f n r src ck).2.1.st (g.stream.drop ri)) ∧
        D.canSave (srLoop D seekM f n r src ck).2.1.st = true ∧ (srLoop D seekM f n r src ck).2.1.want = false) ∨
      ((srLoop D seekM f n r src ck).1.2 ≠ some .readyToSave ∧ (SeekSt.hasSSC src = true → ∀ k, FlateOwes g D G r src k → (srLoop D seekM f n r src ck).1.1.length ≤ k ∧
        FlateOwes g D G (srLoop D seekM f n r src ck).2.1 (srLoop D seekM f n r src ck).2.2.1 (k - (srLoop D seekM f n r src ck).1.1.length)))) := by
  intro f
  induction f with
  | zero =>
    intro r src ck h
    exact ⟨Nat.zero_le _, rfl, h, Or.inr ⟨nofun, fun _ k hk => ⟨Nat.zero_le _, hk⟩⟩⟩
  | succ f ih =>
    intro r src ck h
    obtain ⟨i1, i2, i3, i4⟩ := h
    rw [srLoop_succ]
    by_cases hp : r.pend = []
    · simp only [hp, ne_eq, not_true_eq_false, if_false]
      cases he : r.err with
      | some e =>
        simp only
        refine ⟨Nat.zero_le _, trivial, ⟨i1, i2, i3, i4⟩, Or.inr ⟨by rw [he] at i3; exact i3, fun _ k hk => ⟨Nat.zero_le _, hk⟩⟩⟩
      | none =>
        simp only
        obtain ⟨o, a0, a1, a2⟩ := i4 he
        by_cases hw : (r.want && D.canSave r.st) = true
        · rw [if_pos hw]
          simp only [Bool.and_eq_true] at hw
          obtain ⟨oi, w1, w2, w3⟩ := i1 hw.1
          refine ⟨Nat.zero_le _, rfl, ⟨nofun, Nat.zero_le _, nofun, fun _ => i4 he⟩, Or.inl ⟨rfl, rfl, ⟨oi, o, w1, a0, by omega, a1.2.2.1, a2⟩, hw.2, rfl⟩⟩
        · rw [if_neg hw]
          obtain ⟨bs, e, src', ck', fired, b1, b2, b3, b4, b5⟩ := askByte g D r.st (hask _) src ck o a1
          rw [b1]
          simp only
          -- the new state
          have step : FlateInv g D G (r.absorb bs e fired) src' ck' ∧ (SeekSt.hasSSC src = true → ∀ k, FlateOwes g D G r src k → FlateOwes g D G (r.absorb bs e fired) src' k) := by
            have hwant : ∀ bs e, (r.absorb bs e fired).want = true → ∃ oi : Nat, ck' = some (.plain oi) ∧ (oi : Int) ≤ (r.absorb bs e fired).roff ∧ oi ≤ g.stream.length := by
              intro bs e hx
              have hx : (r.want || fired) = true := hx
              have hro : (r.absorb bs e fired).roff = r.roff + bs.length := rfl
              rw [hro]
              cases fired with
              | true => exact ⟨o, b3 rfl, by omega, a1.2.2.1⟩
              | false =>
                obtain ⟨oi, w1, w2, w3⟩ := i1 (by simpa using hx)
                exact ⟨oi, by rw [b4 rfl]; exact w1, by omega, w3⟩
            rcases b5 with ⟨x, rfl, rfl, c1, c2, c3⟩ | ⟨y, rfl, rfl, hy⟩
            · rw [c1] at a2
              obtain ⟨a3, a4⟩ := a2
              have hout : ∀ st' out, D.fin r.st = false → D.feed r.st x = some (st', out) → stride D r.st (x :: g.stream.drop (o + 1)) = out.length + toGo D st' (g.stream.drop (o + 1)) := by
                intro st' out hf hfd
                simp only [stride, hf, Bool.false_eq_true, if_false, hfd, toGo]
              rcases absorb_byte D r x fired with ⟨d1, d2, d3⟩ | ⟨d1, d2, d3, d4⟩
              · have hlen : (r.absorb [x] none fired).pend.length ≤ toGo D r.st (x :: g.stream.drop (o + 1)) ∨ (r.absorb [x] none fired).pend.length ≤ stride D r.st (x :: g.stream.drop (o + 1)) := by
                  rcases d3 with d3 | ⟨d3, st', d4⟩
                  · rw [d3]; exact Or.inl (Nat.zero_le _)
                  · right; rw [hout _ _ d3 d4]; omega
                have hlen2 : (r.absorb [x] none fired).pend.length ≤ stride D r.st (x :: g.stream.drop (o + 1)) := by
                  rcases hlen with a | a
                  · unfold toGo at a; split at a <;> omega
                  · exact a
                refine ⟨⟨hwant _ _, by omega, d2, fun hz => absurd hz d1⟩, fun _ k hk => Or.inl ⟨d1, ?_⟩⟩
                rcases hk with ⟨k1, _⟩ | ⟨_, _, k3⟩ | ⟨_, k2, o', k3, k4⟩
                · exact absurd he k1
                · omega
                · rw [atS_fun k3 a1, c1, hp] at k4
                  unfold toGo at k4
                  have : D.canSave r.st = false := by simpa [k2] using hw
                  rw [this] at k4
                  simp only [Bool.false_eq_true, if_false, List.length_nil] at k4
                  omega
              · have ho := hout _ _ d2 d4
                refine ⟨⟨hwant _ _, by omega, by rw [d1]; nofun, fun _ => ⟨o + 1, by show r.roff + (([x] : List Byte).length : Int) = _; rw [a0]; rfl, c2, a4 _ _ d4⟩⟩, fun hs k hk => ?_⟩
                rcases hk with ⟨k1, _⟩ | ⟨_, k2, k3⟩ | ⟨_, k2, o', k3, k4⟩
                · exact absurd he k1
                · refine Or.inr (Or.inr ⟨d1, by rw [d3, c3 hs, k2]; simp, o + 1, c2, ?_⟩)
                  rw [hp, List.length_nil] at k3
                  omega
                · refine Or.inr (Or.inr ⟨d1, by rw [d3, k2]; simp, o + 1, c2, ?_⟩)
                  rw [atS_fun k3 a1, c1, hp] at k4
                  unfold toGo at k4
                  have : D.canSave r.st = false := by simpa [k2] using hw
                  rw [this] at k4
                  simp only [Bool.false_eq_true, if_false, List.length_nil] at k4
                  omega
            · obtain ⟨d1, d2, d3⟩ := absorb_fail D r y fired hy
              exact ⟨⟨hwant _ _, by rw [d3]; exact Nat.zero_le _, d2, fun hz => absurd hz d1⟩, fun _ k _ => Or.inl ⟨d1, by rw [d3]; exact Nat.zero_le _⟩⟩
          obtain ⟨c1, c2, c3, c4⟩ := ih (r.absorb bs e fired) src' ck' step.1
          refine ⟨c1, c2.trans b2, c3, ?_⟩
          rcases c4 with c4 | ⟨c4, c5⟩
          · exact Or.inl c4
          · exact Or.inr ⟨c4, fun hs k hk => c5 (b2.trans hs) k (step.2 hs k hk)⟩
    · rw [if_pos hp]
      simp only
      refine ⟨by rw [List.length_take]; omega, trivial, ⟨i1, by simp only [List.length_drop]; omega, i3, i4⟩, Or.inr ⟨?_, fun _ k hk => ?_⟩⟩
      · split
        · exact i3
        · nofun
      · simp only [List.length_take]
        rcases hk with ⟨k1, k2⟩ | ⟨k1, k2, k3⟩ | ⟨k1, k2, o, k3, k4⟩
        · exact ⟨by omega, Or.inl ⟨k1, by simp only [List.length_drop]; omega⟩⟩
        · exact ⟨by omega, Or.inr (Or.inl ⟨k1, k2, by simp only [List.length_drop]; omega⟩)⟩
        · exact ⟨by omega, Or.inr (Or.inr ⟨k1, k2, o, k3, by simp only [List.length_drop]; omega⟩)⟩


/-- A source that serves requests with some delay: `due s k` if at most `k` bytes will be read from it before the next checkpoint. `Ck` holds of the checkpoints
it makes. -/
structure OweSrc (S : SourceM) (G : Nat) (Ok : S.St → Prop) (due : S.St → Nat → Prop) (Ck : Ckpt → Prop) : Prop where
  read : ∀ {C : Type} (cb : Callback C) (n : Nat) (s : S.St) (c : C), Ok s → Ok (S.read cb n s c).2.1 ∧ (S.read cb n s c).1.1.length ≤ n ∧
    (((S.read cb n s c).2.2 = c ∧ ∀ k, due s k → (S.read cb n s c).1.1.length ≤ k ∧ due (S.read cb n s c).2.1 (k - (S.read cb n s c).1.1.length)) ∨
      ((S.read cb n s c).1.1 = [] ∧ ∃ sck, Ck sck ∧ (S.read cb n s c).2.2 = (cb sck c).1))
  want : ∀ s, Ok s → Ok (S.wantSave s) ∧ due (S.wantSave s) G ∧ ∀ k, due s k → due (S.wantSave s) k

/-- A decompressing source in the middle of the member. -/
def FlatePre (s : WrapSt D seekM) : Prop := ∃ r, s.sr = some r ∧ FlateInv g D G r s.src s.srcCk

/-- The same, with a save consumer. -/
def FlateOk (s : WrapSt D seekM) : Prop := s.hasSSC = true ∧ SeekSt.hasSSC s.src = true ∧ FlatePre g D G s

/-- At most `k` bytes will come out of it before the next checkpoint. -/
def FlateDue (s : WrapSt D seekM) (k : Nat) : Prop := ∃ r, s.sr = some r ∧ FlateOwes g D G r s.src k

theorem FlatePre.setSSC {cfg : WrapCfg} {F : Nat} {s : WrapSt D seekM} (h : FlatePre g D G s) : FlateOk g D G ((wrapM cfg D seekM F).setSSC true s) := by
  obtain ⟨r, h1, h2⟩ := h
  exact ⟨rfl, rfl, r, h1, h2⟩

theorem wrapRead_pre (hask : ∀ st, D.ask st = 0) {C : Type} (cfg : WrapCfg) (F : Nat) (cb : Callback C) (n : Nat)
    (s : WrapSt D seekM) (c : C) (h : FlatePre g D G s) : FlatePre g D G (Wrap.read cfg D seekM F cb n s c).2.1 := by
  obtain ⟨r, h3, h4⟩ := h
  obtain ⟨a1, a2, a3, a4⟩ := srLoop_owes g D G hask n F r s.src s.srcCk h4
  unfold Wrap.read
  rw [h3]
  simp only
  generalize srLoop D seekM F n r s.src s.srcCk = q at *
  obtain ⟨⟨bs, e⟩, r', src', ck'⟩ := q
  simp only at a1 a2 a3 a4 ⊢
  rcases a4 with ⟨b1, b2, b3, b4, b5⟩ | ⟨b1, b2⟩
  · rw [if_pos b1]
    have hx : ∀ ck2, FlateInv g D G r' src' ck2 := fun ck2 => ⟨by rw [b5]; nofun, a3.2⟩
    cases ck' with
    | none => exact ⟨r', rfl, hx _⟩
    | some sck =>
      simp only
      split
      · exact ⟨r', rfl, hx _⟩
      · split
        · exact ⟨r', rfl, hx _⟩
        · exact ⟨r', rfl, hx _⟩
  · rw [if_neg b1]
    exact ⟨r', rfl, a3⟩

theorem wrapRead_owes (hask : ∀ st, D.ask st = 0) (hsv : ∀ st, D.canSave st = true → D.saveOK st = true) {C : Type} (cfg : WrapCfg) (F : Nat) (cb : Callback C) (n : Nat)
    (s : WrapSt D seekM) (c : C) (h : FlateOk g D G s) :
    FlateOk g D G (Wrap.read cfg D seekM F cb n s c).2.1 ∧ (Wrap.read cfg D seekM F cb n s c).1.1.length ≤ n ∧
    (((Wrap.read cfg D seekM F cb n s c).2.2 = c ∧ ∀ k, FlateDue g D G s k → (Wrap.read cfg D seekM F cb n s c).1.1.length ≤ k ∧
        FlateDue g D G (Wrap.read cfg D seekM F cb n s c).2.1 (k - (Wrap.read cfg D seekM F cb n s c).1.1.length)) ∨
      ((Wrap.read cfg D seekM F cb n s c).1.1 = [] ∧ ∃ sck, FlateCk D G g.stream sck ∧ (Wrap.read cfg D seekM F cb n s c).2.2 = (cb sck c).1)) := by
  obtain ⟨h1, h2, r, h3, h4⟩ := h
  obtain ⟨a1, a2, a3, a4⟩ := srLoop_owes g D G hask n F r s.src s.srcCk h4
  rw [h2] at a2
  unfold Wrap.read
  rw [h3]
  simp only
  generalize srLoop D seekM F n r s.src s.srcCk = q at *
  obtain ⟨⟨bs, e⟩, r', src', ck'⟩ := q
  simp only at a1 a2 a3 a4 ⊢
  rcases a4 with ⟨b1, b2, ⟨oi, ri, b3, b6, b7, b8, b9⟩, b4, b5⟩ | ⟨b1, b2⟩
  · rw [if_pos b1]
    subst b3
    simp only [h1, Bool.true_eq_false, if_false, hsv _ b4]
    refine ⟨⟨rfl, a2, r', rfl, ?_⟩, a1, Or.inr ⟨b2, _, ⟨cfg.tag, s.offset + bs.length, oi, if cfg.ownOffset then s.offset + bs.length else 0, ri, r'.woff, r'.st, ?_, b4, b7, b8, b9⟩, rfl⟩⟩
    · obtain ⟨_, i2, i3, i4⟩ := a3
      exact ⟨by rw [b5]; nofun, i2, i3, i4⟩
    · unfold Wrap.mkCkpt
      rw [b6]
  · rw [if_neg b1]
    refine ⟨⟨h1, a2, r', rfl, a3⟩, a1, Or.inl ⟨rfl, fun k hk => ?_⟩⟩
    obtain ⟨r0, k1, k2⟩ := hk
    rw [h3] at k1
    cases k1
    obtain ⟨c1, c2⟩ := b2 h2 k k2
    exact ⟨c1, r', rfl, c2⟩

/-- A decompressing source over a file, as long as the decompressor gets to a place to save at every `G` bytes. -/
theorem wrap_owing (cfg : WrapCfg) (hask : ∀ st, D.ask st = 0) (hsv : ∀ st, D.canSave st = true → D.saveOK st = true) (F : Nat) :
    OweSrc (wrapM cfg D seekM F) (2 * G) (FlateOk g D G) (FlateDue g D G) (FlateCk D G g.stream) where
  read cb n s c h := wrapRead_owes g D G hask hsv cfg F cb n s c h
  want s hok := by
    obtain ⟨h1, h2, r, h3, i1, i2, i3, i4⟩ := hok
    refine ⟨⟨h1, h2, r, h3, i1, i2, i3, i4⟩, ⟨r, h3, ?_⟩, fun k hk => ?_⟩
    · by_cases he : r.err = none
      · exact Or.inr (Or.inl ⟨he, rfl, by omega⟩)
      · exact Or.inl ⟨he, by omega⟩
    · obtain ⟨r0, k1, k2⟩ := hk
      refine ⟨r0, k1, ?_⟩
      rcases k2 with ⟨a, b⟩ | ⟨a, b, c⟩ | ⟨a, b, o, c, d⟩
      · exact Or.inl ⟨a, b⟩
      · exact Or.inr (Or.inl ⟨a, rfl, c⟩)
      · exact Or.inr (Or.inr ⟨a, b, o, c, d⟩)

/-! ## Opening it -/

/-- What the decompressor puts out for one byte is part of the way to the next place to save at. -/
theorem stride_out {st : D.St} {b : Byte} {z : List Byte} {st' : D.St} {out : List Byte} (hf : D.fin st = false) (h : D.feed st b = some (st', out)) :
    out.length ≤ stride D st (b :: z) := by
  unfold stride
  rw [hf, h]
  simp only [Bool.false_eq_true, if_false]
  omega

/-- The header of the compressed file. -/
theorem hdrLoop_owes (hask : ∀ st, D.ask st = 0) : ∀ (f : Nat) (r : SR D) (src : seekM.St) (ck : Option Ckpt) (fired : Bool),
    r.want = false → r.pend.length ≤ G → r.err ≠ some .readyToSave → (r.err = none → ∃ o : Nat, r.roff = o ∧ AtS g src o ∧ Strides D G r.st (g.stream.drop o)) →
    ∀ r' src' ck' fired', hdrLoop D seekM f r src ck fired = (.ok r', src', ck', fired') →
      r'.want = false ∧ r'.pend.length ≤ G ∧ r'.err ≠ some .readyToSave ∧ (r'.err = none → ∃ o : Nat, r'.roff = o ∧ AtS g src' o ∧ Strides D G r'.st (g.stream.drop o)) := by
  intro f
  induction f with
  | zero => intro r src ck fired _ _ _ _ r' src' ck' fired' h; simp [hdrLoop] at h
  | succ f ih =>
    intro r src ck fired h1 h2 h3 h4 r' src' ck' fired' h
    unfold hdrLoop at h
    split at h
    · cases h; exact ⟨h1, h2, h3, h4⟩
    · cases he : r.err with
      | some e => rw [he] at h; simp at h
      | none =>
        rw [he] at h
        simp only at h
        obtain ⟨o, a0, a1, a2⟩ := h4 he
        obtain ⟨bs, e, src1, ck1, fired1, b1, _, _, _, b2⟩ := askByte g D r.st (hask _) src ck o a1
        rw [b1] at h
        simp only at h
        refine ih _ _ _ _ ?_ ?_ ?_ ?_ r' src' ck' fired' h
        · show (r.want || false) = false
          rw [h1]; rfl
        all_goals rcases b2 with ⟨x, rfl, rfl, c1, c2, _⟩ | ⟨y, rfl, rfl, hy⟩
        · rw [c1] at a2
          rcases absorb_byte D r x false with ⟨_, _, d | ⟨d2, st', d3⟩⟩ | ⟨_, d2, _, d4⟩
          · rw [d]; exact Nat.zero_le _
          · exact Nat.le_trans (stride_out D d2 d3) a2.1
          · exact Nat.le_trans (stride_out D d2 d4) a2.1
        · rw [(absorb_fail D r y false hy).2.2]; exact Nat.zero_le _
        · rcases absorb_byte D r x false with ⟨_, d, _⟩ | ⟨d, _⟩
          · exact d
          · rw [d]; nofun
        · exact (absorb_fail D r y false hy).2.1
        · intro hz
          rw [c1] at a2
          rcases absorb_byte D r x false with ⟨d, _⟩ | ⟨_, _, _, d4⟩
          · exact absurd hz d
          · exact ⟨o + 1, by show r.roff + (([x] : List Byte).length : Int) = _; rw [a0]; rfl, c2, a2.2 _ _ d4⟩
        · intro hz; exact absurd hz (absorb_fail D r y false hy).1

/-- Opening a decompressing source over a file at the beginning. -/
theorem fromStart_owes (cfg : WrapCfg) (hask : ∀ st, D.ask st = 0) (F : Nat) (s : WrapSt D seekM) (hg : Seek.GoodS g s.src) (hst : Strides D G D.start g.stream)
    (o : Int) (s' : WrapSt D seekM) (h : Wrap.fromStart cfg D seekM F s = (.ok o, s')) : FlatePre g D G s' := by
  unfold Wrap.fromStart at h
  dsimp only at h
  rcases Seek.resume_nil_spec g s.src hg with ⟨s1, r1, r2, r3, r4⟩ | ⟨e, s1, r1, _⟩
  · have r1' : seekM.resume none s.src = (.ok 0, s1) := r1
    rw [r1'] at h
    simp only [ne_eq, not_true_eq_false, if_false] at h
    generalize hh : hdrLoop D seekM F (SR.mk' D.start 0 0) s1 s.srcCk false = H at *
    obtain ⟨re, src', ck', fired'⟩ := H
    simp only at h
    split at h
    · simp at h
    · cases re with
      | error x => simp at h
      | ok r' =>
        simp only [Prod.mk.injEq] at h
        obtain ⟨a, b, c, d⟩ := hdrLoop_owes g D G hask F (SR.mk' D.start 0 0) s1 s.srcCk false rfl (Nat.zero_le _) nofun
          (fun _ => ⟨0, rfl, r2, by rw [List.drop_zero]; exact hst⟩) r' src' ck' fired' hh
        rw [← h.2]
        exact ⟨r', rfl, by rw [a]; nofun, b, c, d⟩
  · have r1' : seekM.resume none s.src = (.error e, s1) := r1
    rw [r1'] at h
    simp at h

/-- Skipping keeps what reading keeps. -/
theorem discard_keeps {S : SourceM} {C : Type} (cb : Callback C) (P : S.St → Prop) (hP : ∀ n s c, P s → P (S.read cb n s c).2.1) :
    ∀ (fuel : Nat) (delta : Int) (s : S.St) (c : C), P s → P (discard S cb fuel delta s c).2.1 := by
  intro fuel
  induction fuel with
  | zero => intro delta s c h; unfold discard; split <;> exact h
  | succ f ih =>
    intro delta s c h
    unfold discard
    split
    · dsimp only
      split
      · exact hP _ _ _ h
      · exact ih _ _ _ (hP _ _ _ h)
    · exact h

/-- Skipping, if it succeeds, gets as far as it should. -/
theorem discard_at {S : SourceM} {Y : List Byte} {clean : Bool} (L : Lawful S Y clean) {C : Type} (cb : Callback C) :
    ∀ (fuel delta : Nat) (s : S.St) (o : Nat) (c : C), L.At s o → (discard S cb fuel delta s c).1 = none → L.At (discard S cb fuel delta s c).2.1 (o + delta) := by
  intro fuel
  induction fuel with
  | zero =>
    intro delta s o c h
    unfold discard
    split
    · nofun
    · intro _
      rw [show o + delta = o by omega]
      exact h
  | succ f ih =>
    intro delta s o c h
    unfold discard
    by_cases hd : (delta : Int) > 0
    · rw [if_pos hd]
      have hn : 0 < (min (delta : Int) 4096).toNat := by omega
      obtain ⟨bs, e, s', em, h1, h2, h3, h4, h5, h6, h7⟩ := L.read_spec cb (min (delta : Int) 4096).toNat c h hn
      simp only [h1]
      cases e with
      | some x => nofun
      | none =>
        simp only
        rcases h7 with ⟨_, hat', hrk⟩ | ⟨h, _⟩ | ⟨_, _, _, _, h, _⟩ | ⟨_, h, _⟩
        · have hle : bs.length ≤ delta := by omega
          rw [show (delta : Int) - (bs.length : Int) = ((delta - bs.length : Nat) : Int) by omega]
          intro hz
          have := ih (delta - bs.length) s' (o + bs.length) _ hat' hz
          rw [show o + delta = o + bs.length + (delta - bs.length) by omega]
          exact this
        · cases h
        · cases h
        · cases h
    · rw [if_neg hd]
      intro _
      rw [show o + delta = o by omega]
      exact h

/-- Opening it from a checkpoint. -/
theorem wrapResume_owes (cfg : WrapCfg) (hask : ∀ st, D.ask st = 0) (hde : ∀ st, D.canSave st = true → D.dec (D.enc st) = some st ∨ D.dec (D.enc st) = none)
    (F : Nat) (s : WrapSt D seekM) (hg : Seek.GoodS g s.src) (hst : Strides D G D.start g.stream)
    (ck : Option Ckpt) (hck : ∀ k, ck = some k → FlateCk D G g.stream k)
    (o : Int) (s' : WrapSt D seekM) (h : Wrap.resume cfg D seekM F ck s = (.ok o, s')) : FlatePre g D G s' := by
  cases ck with
  | none => exact fromStart_owes g D G cfg hask F s hg hst o s' h
  | some k =>
    obtain ⟨tag, off, oi, co, ri, wo, st, rfl, hcs, ho, hr, hsd⟩ := hck k rfl
    unfold Wrap.resume at h
    simp only at h
    split at h
    · -- at the right place
      have hal : ∀ (so : Int) (t : WrapSt D seekM), AtS g t.src so.toNat → 0 ≤ so → Seek.GoodS g t.src →
          Wrap.aligned cfg D seekM F so co ⟨ri, wo, D.enc st⟩ t = (.ok o, s') → FlatePre g D G s' := by
        intro so t hat h0 hgt hx
        unfold Wrap.aligned at hx
        simp only at hx
        split at hx
        · rename_i hso
          rcases hde st hcs with e | e
          · rw [e] at hx
            simp only [Prod.mk.injEq] at hx
            rw [← hx.2]
            refine ⟨_, rfl, nofun, Nat.zero_le _, nofun, fun _ => ⟨ri, rfl, ?_, hsd⟩⟩
            rw [hso] at hat
            exact hat
          · rw [e] at hx
            simp only at hx
            rcases Seek.resume_nil_spec g t.src hgt with ⟨s1, r1, r2, r3, r4⟩ | ⟨e, s1, r1, _⟩
            · have r1' : seekM.resume none t.src = (.ok 0, s1) := r1
              rw [r1'] at hx
              exact fromStart_owes g D G cfg hask F { t with src := s1, sr := none } r2.1 hst o s' hx
            · have r1' : seekM.resume none t.src = (.error e, s1) := r1
              rw [r1'] at hx
              simp at hx
        · exact fromStart_owes g D G cfg hask F t hgt hst o s' hx
      rcases (seekLawful g).resume_ck hg (ck := .plain oi) (o := oi) ⟨rfl, by omega⟩ with ⟨oi', s1, h1, h2, h2', h3, h4⟩ | ⟨e, s1, h1, _⟩
      · have : oi' = oi := h2' trivial
        subst this
        rw [h1] at h
        simp only at h
        split at h
        · rename_i hlt
          have hd := discard_at (seekLawful g) srCb F (ri - oi') s1 oi' (s.srcCk, false) h3
          rw [show (((ri - oi' : Nat) : Int)) = (ri : Int) - (oi' : Int) by omega] at hd
          generalize discard seekM srCb F ((ri : Int) - (oi' : Int)) s1 (s.srcCk, false) = d at *
          obtain ⟨de, d1, d2, d3⟩ := d
          simp only at h hd
          split at h
          · simp at h
          · cases de with
            | some x => simp at h
            | none =>
              simp only at h
              have hd := hd rfl
              rw [show oi' + (ri - oi') = ri by omega] at hd
              refine hal ri { s with src := d1, srcCk := d2 } hd (by omega) hd.1 h
        · exact hal oi' { s with src := s1 } h3 (by omega) h3.1 h
      · rw [h1] at h
        simp at h
    · exact fromStart_owes g D G cfg hask F s hg hst o s' h

end

end Savior
