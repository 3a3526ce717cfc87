import Verif.Spec.SourceTest
import Verif.Spec.Cursor
import Verif.CheckerLemmas
import Verif.Stack
/-!
# The source test: lemmas
-/

namespace Savior

/-- What the test's consumer does with the answer of `Resume`. -/
def stNote (data : List Byte) (_ : Ckpt) (r : Except Err Int) (x : STest) : STest :=
  let x := { x with saves := x.saves + 1 }
  if x.saves > 128 then { x with bad := some .tooMany }
    else match r with
      | .error e => { x with bad := some (.failed e) }
      | .ok o => match cSeek data o with
        | .error e => { x with bad := some (.failed e) }
        | .ok o' => { x with off := o' }

theorem stHook_eq (S : SourceM) (data : List Byte) : stHook S data = resumeHook S (stNote data) := rfl

theorem cCheck_none (data : List Byte) (off : Nat) (bs : List Byte) : (cCheck data off bs).2 = none ↔ bs = (data.drop off).take bs.length := by
  obtain ⟨c1, c2, c3, c4⟩ := cCheck_spec data off bs
  rw [c3]
  constructor
  · intro h
    apply List.ext_getElem?
    intro i
    by_cases hi : i < bs.length
    · obtain ⟨b, g1, g2⟩ := c2 i (by omega)
      rw [g1, List.getElem?_take_of_lt hi, List.getElem?_drop, g2]
    · rw [List.getElem?_eq_none (by omega), List.getElem?_eq_none (by simp; omega)]
  · intro h
    apply Nat.le_antisymm c1
    apply Nat.le_of_not_lt
    intro hlt
    obtain ⟨b, g1, g2⟩ := c4 hlt
    apply g2
    have h3 := congrArg (fun l => l[(cCheck data off bs).1]?) h
    rw [List.getElem?_take_of_lt hlt, List.getElem?_drop] at h3
    rw [← h3, g1]

theorem cCheck_count (data : List Byte) (off : Nat) (bs : List Byte) (h : (cCheck data off bs).2 = none) : (cCheck data off bs).1 = bs.length :=
  (cCheck_spec data off bs).2.2.1.1 h

theorem cSeek_ok (data : List Byte) (i : Int) (o : Nat) : cSeek data i = .ok o ↔ i = o ∧ o ≤ data.length := by
  unfold cSeek
  constructor
  · intro h
    split at h
    · cases h
    · split at h
      · cases h
      · injection h with h; omega
  · rintro ⟨h1, h2⟩
    rw [if_neg (by omega), if_neg (by omega)]
    congr 1; omega

/-- The first copy: it succeeds iff reading to the end gives a prefix of the reference and EOF. -/
theorem stCopy_iff (S : LiveM) (hI : IdleReads S) (data : List Byte) : ∀ f off (s : S.St) s2,
    stCopy S data f off s = (none, s2) ↔
      ∃ bs, drain S.toSourceM (fun _ (_ : Unit) => ((), none)) 32768 f s () = ((bs, some .eof), s2, ()) ∧ bs = (data.drop off).take bs.length := by
  intro f
  induction f with
  | zero => intro off s s2; simp [stCopy, drain]
  | succ f ih =>
    intro off s s2
    unfold stCopy drain
    rw [hI]
    generalize S.read (fun _ (_ : Unit) => ((), none)) 32768 s () = r
    obtain ⟨⟨bs, e⟩, s1, u⟩ := r
    dsimp only
    cases hw : (cCheck data off bs).2 with
    | some x =>
      have hne : ¬ bs = (data.drop off).take bs.length := fun h => by rw [(cCheck_none data off bs).2 h] at hw; cases hw
      constructor
      · intro h; simp at h
      · rintro ⟨cs, h1, h2⟩
        exfalso
        apply hne
        cases e with
        | some e =>
          simp only [Prod.mk.injEq] at h1
          rw [h1.1.1]; exact h2
        | none =>
          simp only [Prod.mk.injEq] at h1
          rw [← h1.1.1, List.length_append, List.take_add] at h2
          exact (List.append_inj' h2 (by
            have := congrArg List.length h2
            simp only [List.length_append, List.length_take, List.length_drop] at this ⊢
            omega)).1
    | none =>
      have hbs := (cCheck_none data off bs).1 hw
      have hct := cCheck_count data off bs hw
      dsimp only
      cases e with
      | some e =>
        dsimp only
        constructor
        · intro h
          simp only [Prod.mk.injEq] at h
          by_cases he : e = .eof
          · subst he; rw [if_pos rfl] at h
            exact ⟨bs, by rw [h.2], hbs⟩
          · rw [if_neg he] at h; cases h.1
        · rintro ⟨cs, h1, h2⟩
          simp only [Prod.mk.injEq, Option.some.injEq] at h1
          rw [if_pos h1.1.2, h1.2.1]
      | none =>
        dsimp only
        rw [hct, ih]
        constructor
        · rintro ⟨cs, h1, h2⟩
          refine ⟨bs ++ cs, ?_, ?_⟩
          · rw [h1]
          · rw [List.length_append, List.take_add, ← hbs, List.drop_drop, ← h2]
        · rintro ⟨cs, h1, h2⟩
          simp only [Prod.mk.injEq] at h1
          obtain ⟨⟨a, b⟩, c, d⟩ := h1
          refine ⟨_, Prod.ext (Prod.ext rfl b) (Prod.ext c rfl), ?_⟩
          rw [← a, List.length_append, List.take_add, ← hbs, List.drop_drop] at h2
          exact List.append_cancel_left h2

theorem resumes_cons (v : Seen) (vs : List Seen) : resumes (v :: vs) = (if v.resumed.isSome then 1 else 0) + resumes vs := by
  unfold resumes
  cases h : v.resumed <;> simp [h]; omega

/-- The loop passes iff what is seen is acceptable, with a reasonable number of checkpoints. -/
theorem stLoop_iff (S : LiveM) (hO : CallsOnce S) (data : List Byte) (size : Nat) (threshold : Int) : ∀ f counter (s : S.St) (x : STest),
    x.bad = none → x.saves ≤ 128 →
    (stLoop S data size threshold f counter s x = .pass ↔
      Acceptable data x.off (watch S size threshold f counter s) ∧ 1 ≤ x.saves + resumes (watch S size threshold f counter s) ∧
        x.saves + resumes (watch S size threshold f counter s) ≤ 128) := by
  intro f
  induction f with
  | zero => intro counter s x _ _; simp [stLoop, watch, Acceptable]
  | succ f ih =>
    intro counter s x hb hs
    unfold stLoop watch
    rw [stHook_eq]
    obtain ⟨ck, hck⟩ := hO (stNote data) size s x
    rw [hck]
    generalize seen S size s = r
    obtain ⟨⟨bs, e⟩, s1, res⟩ := r
    dsimp only
    -- what is done after the consumer, for any position and number of saves
    obtain ⟨G, hG⟩ : ∃ G : STest → SVerdict, G = fun y => (match y.bad with
        | some v => v
        | none => match (cCheck data y.off bs).2 with
          | some e => .failed e
          | none => match e with
            | none => stLoop S data size threshold f (if counter + bs.length > threshold then 0 else counter + bs.length)
                (if counter + bs.length > threshold then S.wantSave s1 else s1) { y with off := y.off + (cCheck data y.off bs).1 }
            | some e => if e = .eof then (if y.saves > 0 then SVerdict.pass else .noCheckpoint) else .failed e) := ⟨_, rfl⟩
    have key : ∀ (y : STest), y.bad = none → y.saves ≤ 128 → ∀ (W : List Seen), W = (if e = none then
        (if counter + bs.length > threshold then watch S size threshold f 0 (S.wantSave s1) else watch S size threshold f (counter + bs.length) s1)
       else []) →
      (G y = SVerdict.pass ↔
        (bs = (data.drop y.off).take bs.length ∧ ((e = none ∧ Acceptable data (y.off + bs.length) W) ∨ (e = some .eof ∧ W = []))) ∧
          1 ≤ y.saves + resumes W ∧ y.saves + resumes W ≤ 128) := by
      intro y hy hys W hW
      rw [hG]
      dsimp only
      rw [hy]
      dsimp only
      cases hw : (cCheck data y.off bs).2 with
      | some z =>
        have hne : ¬ bs = (data.drop y.off).take bs.length := fun h => by rw [(cCheck_none data y.off bs).2 h] at hw; cases hw
        dsimp only
        constructor
        · intro h; cases h
        · rintro ⟨⟨h, _⟩, _⟩; exact absurd h hne
      | none =>
        have hbs := (cCheck_none data y.off bs).1 hw
        have hct := cCheck_count data y.off bs hw
        dsimp only
        cases e with
        | some e =>
          dsimp only
          rw [if_neg (by simp)] at hW
          subst hW
          by_cases he : e = .eof
          · subst he
            rw [if_pos rfl]
            constructor
            · intro h
              split at h
              · exact ⟨⟨hbs, .inr ⟨rfl, rfl⟩⟩, by simp [resumes]; omega, by simpa [resumes] using hys⟩
              · cases h
            · rintro ⟨_, h, _⟩
              rw [if_pos (by simp [resumes] at h; omega)]
          · rw [if_neg he]
            constructor
            · intro h; cases h
            · rintro ⟨⟨_, ⟨h, _⟩ | ⟨h, _⟩⟩, _⟩
              · cases h
              · exact absurd (Option.some.inj h) he
        | none =>
          dsimp only
          rw [if_pos rfl] at hW
          have hih := ih (if counter + bs.length > threshold then 0 else counter + bs.length)
            (if counter + bs.length > threshold then S.wantSave s1 else s1) { y with off := y.off + (cCheck data y.off bs).1 } hy hys
          have hW' : watch S size threshold f (if counter + bs.length > threshold then 0 else counter + bs.length)
            (if counter + bs.length > threshold then S.wantSave s1 else s1) = W := by
            rw [hW]; split <;> rfl
          rw [hW', hct, hy] at hih
          rw [hct]
          rw [hih]
          constructor
          · rintro ⟨h, h2⟩; exact ⟨⟨hbs, .inl ⟨rfl, h⟩⟩, h2⟩
          · rintro ⟨⟨_, ⟨_, h⟩ | ⟨h, _⟩⟩, h2⟩
            · exact ⟨h, h2⟩
            · cases h
    generalize hWd : (if e = none then
        (if counter + bs.length > threshold then watch S size threshold f 0 (S.wantSave s1) else watch S size threshold f (counter + bs.length) s1)
       else []) = W
    have hbadG : ∀ (y : STest) v, y.bad = some v → G y = v := by
      intro y v h; rw [hG]; dsimp only; rw [h]
    rw [resumes_cons]
    unfold Acceptable
    refine Iff.trans (b := G (match res with | none => x | some r => stNote data ck r x) = .pass) (by rw [hG]; exact Iff.rfl) ?_
    cases res with
    | none =>
      dsimp only
      refine (key x hb hs W hWd.symm).trans ?_
      simp only [Option.isSome_none]
      constructor
      · rintro ⟨h, h2⟩; exact ⟨⟨x.off, rfl, h⟩, by simpa using h2⟩
      · rintro ⟨⟨o, rfl, h⟩, h2⟩; exact ⟨h, by simpa using h2⟩
    | some res =>
      dsimp only
      simp only [Option.isSome_some, if_true]
      by_cases h128 : x.saves + 1 > 128
      · have : stNote data ck res x = { x with saves := x.saves + 1, bad := some .tooMany } := by
          unfold stNote; dsimp only; rw [if_pos h128]
        rw [this, hbadG _ _ rfl]
        constructor
        · intro h; cases h
        · rintro ⟨_, _, h⟩; omega
      · have hn : stNote data ck res x = (match res with
          | .error e => { x with saves := x.saves + 1, bad := some (.failed e) }
          | .ok o => match cSeek data o with
            | .error e => { x with saves := x.saves + 1, bad := some (.failed e) }
            | .ok o' => { x with saves := x.saves + 1, off := o' }) := by
          unfold stNote; dsimp only; rw [if_neg h128]
        rw [hn]
        cases res with
        | error e =>
          rw [hbadG _ _ rfl]
          constructor
          · intro h; cases h
          · rintro ⟨⟨o, ⟨h, _⟩, _⟩, _⟩; cases h
        | ok i =>
          dsimp only
          cases hsk : cSeek data i with
          | error e =>
            rw [hbadG _ _ rfl]
            constructor
            · intro h; cases h
            · rintro ⟨⟨o, ⟨h, ho⟩, _⟩, _⟩
              injection h with h
              rw [(cSeek_ok data i o).2 ⟨h, ho⟩] at hsk
              cases hsk
          | ok o' =>
            dsimp only
            obtain ⟨g1, g2⟩ := (cSeek_ok data i o').1 hsk
            refine (key { x with saves := x.saves + 1, off := o' } hb (by show x.saves + 1 ≤ 128; omega) W hWd.symm).trans ?_
            constructor
            · rintro ⟨h, h2⟩; exact ⟨⟨o', ⟨by rw [g1], g2⟩, h⟩, by dsimp only at h2; omega, by dsimp only at h2; omega⟩
            · rintro ⟨⟨o, ⟨ho, _⟩, h⟩, h2⟩
              injection ho with ho
              have : o = o' := by omega
              subst this
              exact ⟨h, by dsimp only; omega, by dsimp only; omega⟩

end Savior
