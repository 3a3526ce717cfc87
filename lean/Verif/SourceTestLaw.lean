import Verif.SourceTestLemmas
/-!
# The source test: the sources that take it
-/

namespace Savior
open Seek (Geo GoodS AtS)

/-- What the test needs of a source's `Read` when its consumer resumes the source. -/
structure LiveLaw (S : LiveM) {Y : List Byte} {clean : Bool} (L : Lawful S.toSourceM Y clean) : Prop where
  idle : IdleReads S
  once : CallsOnce S
  read : ∀ {s o} n, L.nice → clean = true → L.At s o → 0 < n →
    ∃ (bs : List Byte) (e : Option Err) (s' : S.St) (res : Option (Except Err Int)) (o' : Nat),
      seen S n s = ((bs, e), s', res) ∧ bs.length ≤ n ∧ bs = (Y.drop o').take bs.length ∧
      ((res = none ∧ o' = o) ∨ (res = some (.ok (o' : Int)) ∧ (o' = o ∨ o' = 0))) ∧ o' ≤ Y.length ∧
      ((e = none ∧ L.At s' (o' + bs.length) ∧ (res = none → L.rank s' < L.rank s)) ∨ (e = some .eof ∧ o' + bs.length = Y.length))

theorem seek_idle_read (n : Nat) (s : SeekSt) :
    Seek.readLive (fun _ s (_ : Unit) => (s, (), none)) n s () = Seek.read (fun _ (_ : Unit) => ((), none)) n s () := by
  unfold Seek.readLive Seek.read
  have : Seek.handleLive (fun _ s (_ : Unit) => (s, (), none)) s () = Seek.handleSave (fun _ (_ : Unit) => ((), none)) s () := by
    unfold Seek.handleLive Seek.handleSave
    split
    · split <;> rfl
    · rfl
  rw [this]
  rfl

theorem seek_idle : IdleReads seekLive := fun n s => seek_idle_read n s

theorem seek_once_read {X : Type} (f : Ckpt → Except Err Int → X → X) (n : Nat) (s : SeekSt) (x : X) :
    Seek.readLive (resumeHook seekM f) n s x = ((Seek.readLive (resumeHook seekM fun _ r _ => some r) n s none).1,
      (Seek.readLive (resumeHook seekM fun _ r _ => some r) n s none).2.1,
      match (Seek.readLive (resumeHook seekM fun _ r _ => some r) n s none).2.2 with | none => x | some r => f (.plain s.offset) r x) := by
  unfold Seek.readLive
  have key : ∀ {Y : Type} (g : Ckpt → Except Err Int → Y → Y) (y : Y), Seek.handleLive (resumeHook seekM g) s y =
      if s.wantSave ∧ s.hasSSC then ((Seek.resume (some (.plain s.offset)) { s with wantSave := false }).2,
        g (.plain s.offset) (Seek.resume (some (.plain s.offset)) { s with wantSave := false }).1 y)
      else ({ s with wantSave := false }, y) := by
    intro Y g y
    unfold Seek.handleLive
    by_cases hw : s.wantSave = true
    · by_cases hs : s.hasSSC = true
      · rw [if_pos hw, if_pos hs, if_pos ⟨hw, hs⟩]; rfl
      · rw [if_pos hw, if_neg hs, if_neg (fun h => hs h.2)]
    · rw [if_neg hw, if_neg (fun h => hw h.1)]
      have : s.wantSave = false := by simpa using hw
      cases s; simp_all
  rw [key, key]
  split
  · rfl
  · split
    · rfl
    · dsimp only
      split
      · rfl
      · split
        · rfl
        · by_cases h : s.wantSave = true ∧ s.hasSSC = true
          · rw [if_pos h, if_pos h]
            dsimp only
            split <;> rfl
          · rw [if_neg h, if_neg h]
            dsimp only
            split <;> rfl

theorem seek_once : CallsOnce seekLive := fun f n s x => ⟨.plain (Seek.tell s), seek_once_read f n s x⟩

theorem seek_live_read (g : Geo) (s : SeekSt) (o n : Nat) (hnice : NoFault g.sched) (hat : AtS g s o) (hn : 0 < n) :
    ∃ (bs : List Byte) (e : Option Err) (s' : SeekSt) (res : Option (Except Err Int)),
      Seek.readLive (resumeHook seekM fun _ r _ => some r) n s none = ((bs, e), s', res) ∧ bs.length ≤ n ∧ bs = (g.stream.drop o).take bs.length ∧
      (res = none ∨ res = some (.ok (o : Int))) ∧ o ≤ g.stream.length ∧
      ((e = none ∧ AtS g s' (o + bs.length) ∧ bs ≠ []) ∨ (e = some .eof ∧ o + bs.length = g.stream.length)) ∧
      (o ≠ g.size → s'.wantSave = false ∧ (res.isSome = (s.wantSave && s.hasSSC))) ∧ s'.hasSSC = s.hasSSC := by
  have hlen := Seek.stream_length g
  have hle := hat.2.2.1
  obtain ⟨b, hb, _⟩ := hat.2.2.2
  have plain : ∀ s1 : SeekSt, AtS g s1 o → s1.wantSave = false → s.size - s.offset ≠ 0 → ∀ (y : Option (Except Err Int)),
      Seek.handleLive (resumeHook seekM fun _ r _ => some r) s none = (s1, y) →
      ∃ bs e s', Seek.readLive (resumeHook seekM fun _ r _ => some r) n s none = ((bs, e), s', y) ∧ bs.length ≤ n ∧
        bs = (g.stream.drop o).take bs.length ∧
        ((e = none ∧ AtS g s' (o + bs.length) ∧ bs ≠ []) ∨ (e = some .eof ∧ o + bs.length = g.stream.length)) ∧
        s'.wantSave = false ∧ s'.hasSSC = s1.hasSSC := by
    intro s1 h1 hw1 hz y hh
    obtain ⟨bs, e, s', em, r1, r2, r3, r4, r5, r6, r7, r8⟩ := Seek.read_spec g (fun _ (c : Option (Except Err Int)) => (c, none)) s1 o n y h1 hn
    have hem : em = none := by rw [r2]; exact Seek.emitted_quiet g s1 o hw1
    have heq : Seek.readLive (resumeHook seekM fun _ r _ => some r) n s none = Seek.read (fun _ (c : Option (Except Err Int)) => (c, none)) n s1 y := by
      have hsz : s1.size = s.size := by rw [h1.1.2.2.2, hat.1.2.2.2]
      have hof : s1.offset = s.offset := by rw [h1.2.1, hat.2.1]
      obtain ⟨b1, hb1, _⟩ := h1.2.2.2
      unfold Seek.readLive Seek.read
      rw [hh]
      simp only [hb, hb1, hsz, hof, Seek.handleSave, hw1]
      rw [if_neg (by omega : ¬ n = 0), if_neg (by omega : ¬ n = 0), if_neg hz, if_neg hz]
      have hc : ¬ ((n : Int) > s.size - s.offset ∧ s.size - s.offset < 0) := by
        rw [hat.1.2.2.2, hat.2.1]; omega
      rw [if_neg hc, if_neg hc]
      simp [hb1, hof, hw1, hsz]
    rw [heq, r1, hem]
    refine ⟨bs, e, s', rfl, r5, r6, ?_, ?_, r3⟩
    · rcases r8 with ⟨a, b⟩ | ⟨a, b, _⟩ | ⟨x, _, _, _, _, _, hx⟩
      · exact .inl ⟨a, r7, b⟩
      · exact .inr ⟨a, b⟩
      · exact absurd hnice hx
    · rw [r4]; split
      · exact hw1
      · rfl
  by_cases hz : s.size - s.offset = 0
  · refine ⟨[], some .eof, s, none, ?_, by simp, by simp, .inl rfl, hle, .inr ⟨rfl, ?_⟩, ?_, rfl⟩
    · unfold Seek.readLive
      simp only [hb]
      rw [if_neg (by omega), if_pos hz]
    · rw [hat.1.2.2.2, hat.2.1] at hz
      simp; omega
    · intro h
      rw [hat.1.2.2.2, hat.2.1] at hz
      exact absurd (by omega) h
  · by_cases hw : s.wantSave = true ∧ s.hasSSC = true
    · rcases Seek.resume_ck_spec g { s with wantSave := false } (.plain s.offset) o hat.1 ⟨by rw [hat.2.1], hat.2.2.1⟩ with
        ⟨s1, h1, h2, h3, h4⟩ | ⟨e, s1, h1, h2, _⟩
      · obtain ⟨bs, e, s', q1, q2, q3, q4, q5, q6⟩ := plain s1 h2 h4 hz (some (.ok (o : Int))) (by
          unfold Seek.handleLive
          rw [if_pos hw.1, if_pos hw.2]
          show ((Seek.resume _ _).2, some (Seek.resume _ _).1) = _
          rw [h1])
        exact ⟨bs, e, s', _, q1, q2, q3, .inr rfl, hle, q4, fun _ => ⟨q5, by simp [hw.1, hw.2]⟩, q6.trans h3⟩
      · exact absurd hnice h2
    · obtain ⟨bs, e, s', q1, q2, q3, q4, q5, q6⟩ := plain { s with wantSave := false } hat rfl hz none (by
        unfold Seek.handleLive
        by_cases hw1 : s.wantSave = true
        · rw [if_pos hw1, if_neg (fun h => hw ⟨hw1, h⟩)]
        · rw [if_neg hw1]
          have : s.wantSave = false := by simpa using hw1
          cases s; simp_all)
      refine ⟨bs, e, s', none, q1, q2, q3, .inl rfl, hle, q4, fun _ => ⟨q5, ?_⟩, q6⟩
      cases h1 : s.wantSave <;> cases h2 : s.hasSSC <;> first | rfl | exact absurd ⟨h1, h2⟩ hw

theorem seek_live (g : Geo) : LiveLaw seekLive (seekLawful g) where
  idle := seek_idle
  once := seek_once
  read := by
    intro s o n hnice _ hat hn
    obtain ⟨bs, e, s', res, h1, h2, h3, h4, h5, h6, _⟩ := seek_live_read g s o n hnice hat hn
    refine ⟨bs, e, s', res, o, h1, h2, h3, h4.imp (fun h => ⟨h, rfl⟩) (fun h => ⟨h, .inl rfl⟩), h5, ?_⟩
    rcases h6 with ⟨a, b, c⟩ | h
    · refine .inl ⟨a, b, fun _ => ?_⟩
      replace hat : AtS g s o := hat
      show (s'.size - s'.offset).toNat < (Seek.size s - Seek.tell s).toNat
      have hl : 0 < bs.length := List.length_pos_iff.mpr c
      have hb' := b.2.2.1
      have hlen := Seek.stream_length g
      rw [b.2.1, b.1.2.2.2, show Seek.tell s = _ from hat.2.1, show Seek.size s = _ from hat.1.2.2.2]
      omega
    · exact .inr h

section
variable {I : SourceM} {Z : List Byte} {cz : Bool} {L : Lawful I Z cz} (cfg : WrapCfg) {D : Decomp} {F : Nat}

/-- Reading a decompressing source: what the consumer does never matters but for its error. -/
theorem wrap_read_nat {C : Type} (cb : Callback C) (hcb : ∀ ck c, (cb ck c).2 = none) (n : Nat) (s : WrapSt D I) (c : C) :
    Wrap.read cfg D I F cb n s c =
      ((Wrap.read cfg D I F (fun ck (_ : Option Ckpt) => (some ck, none)) n s none).1, (Wrap.read cfg D I F (fun ck (_ : Option Ckpt) => (some ck, none)) n s none).2.1,
        match (Wrap.read cfg D I F (fun ck (_ : Option Ckpt) => (some ck, none)) n s none).2.2 with | none => c | some ck => (cb ck c).1) := by
  unfold Wrap.read
  cases s.sr with
  | none => rfl
  | some r =>
    dsimp only
    generalize srLoop D I F n r s.src s.srcCk = q
    split
    · split
      · rfl
      · split
        · rfl
        · split
          · rfl
          · dsimp only; rw [hcb]
    · rfl

theorem wrap_idle_read (n : Nat) (s : WrapSt D I) :
    Wrap.readLive cfg D I F (fun _ s (_ : Unit) => (s, (), none)) n s () = Wrap.read cfg D I F (fun _ (_ : Unit) => ((), none)) n s () := by
  rw [wrap_read_nat cfg _ (fun _ _ => rfl)]
  unfold Wrap.readLive
  dsimp only
  generalize hq : Wrap.read cfg D I F (fun ck (_ : Option Ckpt) => (some ck, none)) n s none = q
  cases h : q.2.2 with
  | none => rfl
  | some ck =>
    have he : q.1.2 = none := by
      rw [← hq] at h ⊢
      revert h
      unfold Wrap.read
      cases s.sr with
      | none => intro h; cases h
      | some r =>
        dsimp only
        generalize srLoop D I F n r s.src s.srcCk = q
        split
        · split
          · intro h; cases h
          · split
            · intro h; cases h
            · split
              · intro h; cases h
              · intro _; rfl
        · intro h; cases h
    dsimp only
    refine Prod.ext (Prod.ext rfl he.symm) rfl

theorem wrap_idle : IdleReads (wrapLive cfg D I F) := fun n s => wrap_idle_read cfg n s

theorem wrap_once : CallsOnce (wrapLive cfg D I F) := by
  intro X f n s x
  have hseen : seen (wrapLive cfg D I F) n s = Wrap.readLive cfg D I F (resumeHook (wrapM cfg D I F) fun _ r _ => some r) n s none := rfl
  rw [hseen]
  show ∃ ck, Wrap.readLive cfg D I F (resumeHook (wrapM cfg D I F) f) n s x = _
  unfold Wrap.readLive
  dsimp only
  generalize Wrap.read cfg D I F (fun ck (_ : Option Ckpt) => (some ck, none)) n s none = q
  cases q.2.2 with
  | none => exact ⟨.plain 0, rfl⟩
  | some ck => exact ⟨ck, rfl⟩

theorem wrap_live (hD : D.Law) (hB : (∀ st, D.ask st ≠ 0) ∨ LawfulByte L) (hF : L.rankMax + 2 ≤ F) :
    LiveLaw (wrapLive cfg D I F) (wrapLawful cfg hD hB hF) where
  idle := wrap_idle cfg
  once := wrap_once cfg
  read := by
    intro s o n hnice hclean hat hn
    replace hat : AtW L D s o := hat
    obtain ⟨bs, e, s', em, h1, h2, h3, h4, h5, h6, _, _, h7⟩ :=
      readW_spec (cfg := cfg) hD hB hF (fun ck (_ : Option Ckpt) => (some ck, none)) s o n none hat hn
    have hseen : seen (wrapLive cfg D I F) n s = Wrap.readLive cfg D I F (resumeHook (wrapM cfg D I F) fun _ r _ => some r) n s none := rfl
    rw [hseen]
    unfold Wrap.readLive
    rw [h1]
    dsimp only
    have hle : o ≤ (D.decode D.start Z cz).1.length := (wrapLawful cfg hD hB hF).at_le hat
    cases em with
    | none =>
      refine ⟨bs, e, s', none, o, rfl, h4, h5, .inl ⟨rfl, rfl⟩, hle, ?_⟩
      rcases h7 with ⟨a, b, c, _⟩ | ⟨a, b, c, _, d, f⟩ | ⟨ck, x, a, b, c, d, f, _⟩ | ⟨x, a, b, c, d, f, _, g, k⟩
      · exact .inl ⟨a, b, fun _ => c⟩
      · exact .inr ⟨a, c⟩
      · cases a
      · exfalso
        rcases k with ⟨_, _, k, _⟩ | ⟨k1, k2⟩
        · exact k hnice
        · rw [(k2 hnice).1] at hclean; cases hclean
    | some ck =>
      have hbs : bs = [] := by
        rcases h7 with ⟨a, b, c, d, _⟩ | ⟨a, b, c, d, _⟩ | ⟨ck, x, a, b, c, d, f, _⟩ | ⟨x, a, b, c, d, f, g, _⟩
        · cases bs with
          | nil => rfl
          | cons y ys => exact absurd (d (by simp)) (by simp)
        · cases d
        · exact d
        · cases g
      subst hbs
      show ∃ bs e s2 res o', (([], none), (Wrap.resume cfg D I F (some ck) s').2, some (Wrap.resume cfg D I F (some ck) s').1) = ((bs, e), s2, res) ∧ _
      rcases (wrapLawful cfg hD hB hF).resume_ck ((wrapLawful cfg hD hB hF).live_good h6) (h2 ck rfl) with ⟨o', s2, k1, k2, _, k3, _⟩ | ⟨x, s2, k1, k2, _⟩
      · replace k1 : Wrap.resume cfg D I F (some ck) s' = _ := k1
        rw [k1]
        exact ⟨[], none, s2, some (.ok (o' : Int)), o', rfl, by simp, by simp, .inr ⟨rfl, k2⟩, (wrapLawful cfg hD hB hF).at_le k3,
          .inl ⟨rfl, by simpa using k3, fun h => by cases h⟩⟩
      · rw [(k2 hnice).1] at hclean; cases hclean

end

/-- A stack of decompressing sources over a seek source, taking the test. -/
def stackLive (F : Nat) : List Layer → LiveM
  | [] => seekLive
  | l :: ls => wrapLive l.cfg l.D (stackM F ls) F

theorem stackLive_eq (F : Nat) (ls : List Layer) : (stackLive F ls).toSourceM = stackM F ls := by cases ls <;> rfl

end Savior
