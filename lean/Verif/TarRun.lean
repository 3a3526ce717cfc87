import Verif.TarRule
/-!
# Whole runs of the tar extractor
-/

namespace Savior

section
variable {K : SinkM} {V : SaveCons} {S : SourceM} {Y : List Byte} {clean : Bool} {T : TarFmt}

/-- A checkpoint `c` taken within the regular file `h` (which follows the members `ms` and starts at `z0`), when the
source's cursor was at `o`; `R` are the entries listed so far. -/
structure TarCkAt (T : TarFmt) (clean : Bool) (Y : List Byte) (Ck : Ckpt → Nat → Prop) (c : ECkpt) (ms : Members) (h : THdr) (R : List Entry)
    (z0 : Nat) (st0 : T.St) (o : Nat) (e : Entry) : Prop where
  file : FileAt T clean Y ms h z0 st0
  lo : z0 ≤ o
  hi : o ≤ z0 + T.rem st0
  data : ∃ im, c.data = some ⟨some R, some ⟨o, im⟩⟩ ∧ T.save (T.take (o - z0) st0) = some im
  src : ∃ sck, c.srcCk = some sck ∧ Ck sck o
  entry : c.entry = some e
  index : c.entryIndex = (ms.length : Int)
  kind : e.kind = .file

/-- Where a run starts: from nothing (or a checkpoint without tar data), or within a file. -/
inductive TarStart (L : Lawful S Y clean) (T : TarFmt) (F : Nat) (V : SaveCons) (k : K.St) (u : V.St)
    (B : Members → List Entry → XW K V → Prop) (I : Members → THdr → List Entry → Nat → T.St → Nat → XW K V → Prop) (E : XW K V → Prop) :
    Option ECkpt → Nat → Prop
  | fresh {ck} : (∀ c, ck = some c → ∀ R t, c.data ≠ some ⟨some R, some t⟩) → B [] [] (tarWorld tarFreshCk k u) →
      TarStart L T F V k u B I E ck 0
  | again {c ms h R z0 st0 o e} : TarCkAt T clean Y L.CkFor c ms h R z0 st0 o e → E (tarWorld c k u) →
      ((K.getWriter e k).1 = none → I ms h R z0 st0 o (({ tarWorld c k u with sink := (K.getWriter e k).2 } : XW K V).say (.openW e none))) →
      ((K.getWriter e k).1 ≠ none → E (({ tarWorld c k u with sink := (K.getWriter e k).2 } : XW K V).say (.openW e (K.getWriter e k).1))) →
      TarStart L T F V k u B I E (some c) o

variable {pr : Ckpt → Int × Int} {Qt : Prop} {B : Members → List Entry → XW K V → Prop}
  {I : Members → THdr → List Entry → Nat → T.St → Nat → XW K V → Prop} {E P : XW K V → Prop}

theorem phase_start {L : Lawful S Y clean} {s : S.St} {o : Nat} (h : Qt → L.Quiet s) : Phase L V Qt o s o :=
  ⟨Nat.le_refl _, fun hq => ⟨Or.inr (h hq), fun _ => h hq⟩⟩

/-- The tar format never refuses its own checkpoints, and saving works. -/
def TarFmt.Exact (T : TarFmt) : Prop := ∀ st, ∃ im, T.save st = some im ∧ T.dec im = some st

/-- How a run ends. -/
def RunOut (T : TarFmt) (clean : Bool) (Y : List Byte) (V : SaveCons) (K : SinkM) (B : Members → List Entry → XW K V → Prop) (E P : XW K V → Prop)
    (r : Except Err (List Entry)) (w : XW K V) : Prop :=
  (∃ x, r = .error x ∧ E w ∧ (x = .stop → w.stopErr = true ∧ P w)) ∨ (∃ res, r = .ok res ∧ ∃ ms, TarHas T clean Y ms ∧ B ms res w)

theorem tarLoop_ne_stop (F : Nat) : ∀ (fuel : Nat) (idx : Int) (s : S.St) (c : TC T K V), (tarLoop S T pr F fuel idx s c).1 ≠ some .stop := by
  intro fuel
  induction fuel with
  | zero => intro idx s c; simp [tarLoop]
  | succ f ih =>
    intro idx s c
    unfold tarLoop
    split
    · simp
    · simp only
      split
      · simp
      · simp
      · exact ih _ _ _

/-- The common end of `Resume`. -/
theorem runOut_of_loop {L : Lawful S Y clean} {r : Option Err} {s' : S.St} {c' : TC T K V} (hne : r ≠ some .stop)
    (hPE : ∀ w, P w → E w) (hout : LoopOut L T V K B E P r s' c') :
    ∃ rr s2 w2, ((match r with
      | some x => (.error x, s', c'.xw)
      | none => (if c'.xw.stopErr then .error .stop else .ok c'.res, s', c'.xw)) : Except Err (List Entry) × S.St × XW K V) = (rr, s2, w2) ∧
      RunOut T clean Y V K B E P rr w2 ∧ (r = none → ∀ x, rr = .error x → x = .stop) ∧ L.Live s2 := by
  obtain ⟨hlive, hout⟩ := hout
  cases r with
  | some x =>
    refine ⟨_, _, _, rfl, Or.inl ⟨x, rfl, ?_, ?_⟩, by simp, hlive⟩
    · rcases hout with ⟨_, a⟩ | ⟨a, _⟩ | ⟨a, _⟩
      · exact a
      all_goals cases a
    · intro h; subst h; exact absurd rfl hne
  | none =>
    refine ⟨_, _, _, rfl, ?_, ?_, hlive⟩
    · rcases hout with ⟨a, _⟩ | ⟨_, a, b⟩ | ⟨_, a, b⟩
      · exact absurd rfl a
      · simp only [a, if_true]; exact Or.inl ⟨_, rfl, hPE _ b, fun _ => ⟨a, b⟩⟩
      · simp only [a, Bool.false_eq_true, if_false]; exact Or.inr ⟨_, rfl, b⟩
    · intro _ x hx
      split at hx
      · cases hx; rfl
      · cases hx

theorem tarResume_fresh (F : Nat) {ck : Option ECkpt} (h : ∀ c, ck = some c → ∀ R t, c.data ≠ some ⟨some R, some t⟩) (src : S.St) (k : K.St) (u : V.St) :
    tarBegin S T F ck src k u = tarFresh S T src k u := by
  unfold tarBegin
  split
  · rename_i c
    split
    · rename_i R t hd
      exact absurd hd (h c rfl R t)
    · rfl
  · rfl

theorem tarResume_rule (hT : T.Law) (L : Lawful S Y clean) {ck : Option ECkpt} {o0 : Nat} (hI : TarInv L T pr V K Qt o0 B I E P) {F : Nat}
    (hF : 2 * L.rankMax + 3 ≤ F) {src : S.St} (hgood : L.Good src) (hq : Qt → L.Quiet src) {k : K.St} {u : V.St}
    (hst : TarStart L T F V k u B I E ck o0) :
    ∃ r s' w', tarResume S T pr F K V ck src k u = (r, s', w') ∧ RunOut T clean Y V K B E P r w' ∧
      (TarFine T clean Y pr V K B I → L.nice → clean = true → ¬ TarBroken T clean Y → L.exact → T.Exact →
        (∀ c e, ck = some c → c.entry = some e → (K.getWriter e k).1 = none) → Y.length + 3 ≤ F → ∀ x, r = .error x → x = .stop) ∧
      (L.Live s' ∨ ∃ sck x, S.resume sck src = (.error x, s') ∧
        ((sck = none ∧ ∀ c, ck = some c → ∀ R t, c.data ≠ some ⟨some R, some t⟩) ∨ ∃ c, ck = some c ∧ sck = c.srcCk)) := by
  unfold tarResume
  cases hst with
  | fresh hnd hB =>
    rw [tarResume_fresh F hnd]
    unfold tarFresh
    rcases L.resume_nil hgood with ⟨s', a, b, c⟩ | ⟨e, s', a, b, c⟩
    · rw [a]
      simp only
      obtain ⟨r, s2, c2, g1, g2, g3⟩ := tarLoop_rule (F := F) hT L hI F (tarWorld (K := K) (V := V) tarFreshCk k u).ck.entryIndex [] 0 (S.setSSC true s')
        ⟨T.start, 0, tarWorld tarFreshCk k u, [], false⟩ (L.at_setSSC true b) (phase_start fun h => L.quiet_setSSC true (c (hq h))) rfl
        (by simpa using TarPath.nil) hB rfl rfl hT.start_asks rfl
      have hne := tarLoop_ne_stop (pr := pr) F F (tarWorld (K := K) (V := V) tarFreshCk k u).ck.entryIndex (S.setSSC true s')
        (⟨T.start, 0, tarWorld tarFreshCk k u, [], false⟩ : TC T K V)
      rw [g1] at hne ⊢
      simp only
      obtain ⟨rr, s3, w3, k1, k2, k3, k5⟩ := runOut_of_loop hne hI.p_end g2
      exact ⟨rr, s3, w3, k1, k2, fun h1 h2 h3 h4 _ _ _ h8 x hx => k3 (g3 h1 h2 h3 h4 hF (by omega)) x hx, Or.inl k5⟩
    · rw [a]
      simp only
      refine ⟨_, _, _, rfl, Or.inl ⟨_, rfl, hI.b_end _ _ _ hB, by simp⟩, ?_, Or.inr ⟨_, _, a, Or.inl ⟨rfl, hnd⟩⟩⟩
      intro _ hn hcl
      have := (b hn).1
      rw [hcl] at this; cases this
  | @again c ms h R z0 st0 _ e hck hE hopen hbad =>
    obtain ⟨im, hdata, him⟩ := hck.data
    obtain ⟨sck, hsck, hfor⟩ := hck.src
    have hb : tarBegin S T F (some c) src k u = tarAgain S T F c R ⟨o0, im⟩ src k u := by
      unfold tarBegin; simp only [hdata]
    rw [hb]
    unfold tarAgain
    rw [hsck]
    simp only
    rcases L.resume_ck hgood hfor with ⟨oc, s', h1, h2, hex, h3, h4⟩ | ⟨x, s', h1, h2, _⟩
    · rw [h1]
      simp only
      have hdis : (∃ (r : Err) (s2 : S.St) (u : Unit), (if (oc : Int) < (o0 : Int) then discard S (fun _ c => (c, none)) F ((o0 : Int) - oc) s' () else (none, s', ())) =
            (some r, s2, u) ∧ ¬ L.exact ∧ L.Live s2) ∨
          (∃ (s2 : S.St) (u : Unit), (if (oc : Int) < (o0 : Int) then discard S (fun _ c => (c, none)) F ((o0 : Int) - oc) s' () else (none, s', ())) =
            (none, s2, u) ∧ L.At s2 o0 ∧ (L.Quiet s' → L.Quiet s2)) := by
        by_cases hlt : (oc : Int) < (o0 : Int)
        · rw [if_pos hlt]
          obtain ⟨r, s2, c', g1, _, gl, g2, g3⟩ := discard_spec L (C := Unit) (fun _ c => (c, none)) (fun _ => True) (fun _ _ _ => trivial)
            F (o0 - oc) s' oc () h3 (by have := L.rank_le h3; omega) trivial
          rw [show ((o0 - oc : Nat) : Int) = (o0 : Int) - oc from by omega] at g1
          rw [g1]
          have hne : ¬ L.exact := fun h => by have := hex h; omega
          rcases g3 with ⟨a, b⟩ | ⟨e, k, a, _⟩ | ⟨e, ck, c1, a, b⟩ | ⟨e, a, _⟩
          · subst a
            rw [show oc + (o0 - oc) = o0 from by omega] at b
            exact Or.inr ⟨s2, c', rfl, b, fun h => (g2 h).1⟩
          · subst a; exact Or.inl ⟨_, s2, c', rfl, hne, gl⟩
          · simp at b
          · subst a; exact Or.inl ⟨_, s2, c', rfl, hne, gl⟩
        · rw [if_neg hlt]
          refine Or.inr ⟨s', (), rfl, ?_, id⟩
          have : oc = o0 := by omega
          rw [← this]; exact h3
      rcases hdis with ⟨x, s2, u', g1, g2, gl⟩ | ⟨s2, u', g1, g2, g3⟩
      · rw [g1]
        simp only
        exact ⟨_, _, _, rfl, Or.inl ⟨_, rfl, hE, by simp⟩, fun _ _ _ _ h => absurd h g2, Or.inl gl⟩
      · rw [g1]
        simp only
        rcases hT.save_dec _ _ him with hd | hd
        · rw [hd]
          simp only
          refine ⟨_, _, _, rfl, Or.inl ⟨_, rfl, hE, by simp⟩, ?_, Or.inl (L.at_live g2)⟩
          intro _ _ _ _ _ hTx
          obtain ⟨im', a, b⟩ := hTx (T.take (o0 - z0) st0)
          rw [him] at a
          cases a
          rw [hd] at b; cases b
        · rw [hd]
          simp only
          -- the first round: the pending file
          have hat := L.at_setSSC true g2
          have hph : Phase L V Qt o0 (S.setSSC true s2) o0 := phase_start fun h => L.quiet_setSSC true (g3 (h4 (hq h)))
          have hci : (tarWorld (K := K) (V := V) c k u).ck.entryIndex = c.entryIndex := rfl
          rw [hci]
          have hF0 : ∃ f, F = f + 1 := ⟨F - 1, by omega⟩
          obtain ⟨f, hf⟩ := hF0
          have hce : ({ c with entryIndex := c.entryIndex } : ECkpt) = c := rfl
          have hw : (tarWorld (K := K) (V := V) c k u).withEntry e = tarWorld c k u := by
            unfold XW.withEntry tarWorld
            simp only [← hck.entry]
          obtain ⟨r, s3, c3, k1, k2, k3, k4⟩ := tarExtract_rule (F := F) (e := e) (s := S.setSSC true s2)
            (c := ⟨T.take (o0 - z0) st0, (o0 : Int), tarWorld c k u, R, false⟩) hT L hI hck.file hat hck.kind
            (by
              rw [hw]
              exact hopen)
            (by
              rw [hw]
              exact hbad) hck.lo hck.hi rfl rfl rfl hph rfl hck.index
          have hstep : tarStep S T pr F c.entryIndex (S.setSSC true s2) ⟨T.take (o0 - z0) st0, (o0 : Int), tarWorld c k u, R, false⟩ =
              (r.elim (.ok false) .error, s3, c3) := by
            unfold tarStep
            have he : (tarWorld (K := K) (V := V) c k u).ck.entry = some e := hck.entry
            simp only [he]
            have : ({ tarWorld (K := K) (V := V) c k u with ck := { (tarWorld (K := K) (V := V) c k u).ck with entryIndex := c.entryIndex, entry := some e } } : XW K V) = tarWorld c k u := by
              unfold tarWorld
              simp only [← hck.entry]
            simp only [this]
            rw [k1]
            cases r <;> rfl
          have hloop : tarLoop S T pr F F c.entryIndex (S.setSSC true s2) ⟨T.take (o0 - z0) st0, (o0 : Int), tarWorld c k u, R, false⟩ =
              r.elim (tarLoop S T pr F f (c.entryIndex + 1) s3 c3) (fun x => (some (.wrapped x), s3, c3)) := by
            conv => lhs; rw [show tarLoop (K := K) (V := V) S T pr F F = tarLoop S T pr F (f + 1) from by rw [hf]]
            conv => lhs; unfold tarLoop
            have : (tarWorld (K := K) (V := V) c k u).stopErr = false := rfl
            simp only [this, Bool.false_eq_true, if_false]
            rw [hstep]
            cases r <;> rfl
          have hne := tarLoop_ne_stop (pr := pr) F F c.entryIndex (S.setSSC true s2)
            (⟨T.take (o0 - z0) st0, (o0 : Int), tarWorld c k u, R, false⟩ : TC T K V)
          have hout : ∃ r s4 c4, tarLoop S T pr F F c.entryIndex (S.setSSC true s2) ⟨T.take (o0 - z0) st0, (o0 : Int), tarWorld c k u, R, false⟩ = (r, s4, c4) ∧
              LoopOut L T V K B E P r s4 c4 ∧
              (TarFine T clean Y pr V K B I → L.nice → clean = true → ¬ TarBroken T clean Y → 2 * L.rankMax + 3 ≤ F → Y.length + 3 ≤ F →
                (K.getWriter e k).1 = none → r = none) := by
            rw [hloop]
            have hlen : ¬ TarBroken T clean Y → z0 + T.rem st0 ≤ Y.length := by
              intro hbr
              rcases Nat.lt_or_ge Y.length (z0 + T.rem st0) with hh | hh
              · exfalso
                obtain ⟨hz, hreg, st1, Y1, hp, hn⟩ := hck.file
                exact hbr ⟨ms, st1, Y1, hp, Or.inr ⟨h, st0, _, hn, hreg, by simp; omega⟩⟩
              · exact hh
            cases r with
            | some x =>
              refine ⟨_, _, _, rfl, ⟨k2, Or.inl ⟨by simp, ?_⟩⟩, ?_⟩
              · rcases k3 with ⟨_, a⟩ | ⟨a, _⟩ | ⟨a, _⟩
                · exact a
                all_goals cases a
              · intro q1 q2 q3 q4 q5 q6 q7
                have := k4 q1 q2 q3 (hlen q4) (by have := L.rank_le hat; omega) q7
                cases this
            | none =>
              show ∃ r s4 c4, tarLoop S T pr F f (c.entryIndex + 1) s3 c3 = (r, s4, c4) ∧ _
              rcases k3 with ⟨a, _⟩ | ⟨_, a, b⟩ | ⟨_, a, b1, b2, b3, b4, b5, b6, b7⟩
              · exact absurd rfl a
              · have h0 : ∀ f, tarLoop S T pr F (f + 1) (c.entryIndex + 1) s3 c3 = (none, s3, c3) := fun f => by unfold tarLoop; simp [a]
                cases hf' : f with
                | zero => exact ⟨_, _, _, rfl, ⟨k2, Or.inl ⟨by simp, hI.p_end _ b⟩⟩, fun _ _ _ _ _ h => by omega⟩
                | succ f => rw [h0 f]; exact ⟨_, _, _, rfl, ⟨k2, Or.inr (Or.inl ⟨rfl, a, b⟩)⟩, fun _ _ _ _ _ _ _ => rfl⟩
              · obtain ⟨r, s4, c4, m1, m2, m3⟩ := tarLoop_rule (F := F) hT L hI f (c.entryIndex + 1) _ _ s3 c3 b1 b2 b3 b4 b5 b6 a b7 (by rw [hck.index]; simp)
                exact ⟨r, s4, c4, m1, m2, fun q1 q2 q3 q4 q5 q6 _ => m3 q1 q2 q3 q4 q5 (by omega)⟩
          obtain ⟨r4, s4, c4, m1, m2, m3⟩ := hout
          rw [m1] at hne ⊢
          simp only
          obtain ⟨rr, s5, w5, n1, n2, n3, n4⟩ := runOut_of_loop hne hI.p_end m2
          exact ⟨rr, s5, w5, n1, n2, fun q1 q2 q3 q4 _ _ q7 q8 x hx => n3 (m3 q1 q2 q3 q4 hF q8 (q7 c e rfl hck.entry)) x hx, Or.inl n4⟩
    · rw [h1]
      simp only
      refine ⟨_, _, _, rfl, Or.inl ⟨_, rfl, hE, by simp⟩, ?_, Or.inr ⟨_, _, h1, Or.inr ⟨c, rfl, hsck.symm⟩⟩⟩
      intro _ hn hcl
      have := (h2 hn).1
      rw [hcl] at this; cases this

end
end Savior
