import Verif.SourceTestLaw
import Verif.Toy
import Verif.Props.Decompress
/-!
# C71: the source test (RunSourceTest)
-/

namespace Savior
open Seek (Geo GoodS AtS)

/-- The test did not find fault with the bytes: it passed, or only complains about the number of checkpoints. -/
def SVerdict.Content (v : SVerdict) : Prop := v = .pass ∨ v = .noCheckpoint ∨ v = .tooMany

/-- The first copy of a test that does not fail has read the whole stream, cleanly, and it is a prefix of the reference. -/
theorem sourceTest_sound {S : LiveM} {Y : List Byte} {clean : Bool} (L : Lawful S.toSourceM Y clean) (hI : IdleReads S) (size : Nat) (threshold : Int)
    (F : Nat) (data : List Byte) (s : S.St) (hg : L.Good s) (h : (sourceTest S size threshold F data s).Content) : clean = true ∧ Y <+: data := by
  unfold sourceTest at h
  rcases L.resume_nil hg with ⟨s1, h1, h2, _⟩ | ⟨e, s1, h1, _⟩
  · rw [h1] at h
    dsimp only at h
    generalize hc : stCopy S data F 0 s1 = c at h
    obtain ⟨r, s2⟩ := c
    cases r with
    | some e => rcases h with h | h | h <;> cases h
    | none =>
      obtain ⟨bs, k1, k2⟩ := (stCopy_iff S hI data F 0 s1 s2).1 hc
      -- whatever the budget, what was read before EOF is everything
      have key : ∀ f (s : S.St) o bs s2, L.At s o → drain S.toSourceM (fun _ (_ : Unit) => ((), none)) 32768 f s () = ((bs, some .eof), s2, ()) →
          bs = Y.drop o ∧ clean = true := by
        intro f
        induction f with
        | zero => intro s o bs s2 _ h; simp [drain] at h
        | succ f ih =>
          intro s o bs s2 hat h
          obtain ⟨cs, e, s', em, r1, _, _, r4, r5, _, r7⟩ := L.read_spec (fun _ (_ : Unit) => ((), none)) 32768 () hat (by omega)
          unfold drain at h
          rw [r1] at h
          dsimp only at h
          have hle := L.at_le hat
          rcases r7 with ⟨a, b, _⟩ | ⟨a, b, d, d2, _⟩ | ⟨ck, x, a, b, _⟩ | ⟨x, a, b, _⟩
          · subst a
            dsimp only at h
            simp only [Prod.mk.injEq] at h
            obtain ⟨⟨p1, p2⟩, p3, _⟩ := h
            obtain ⟨q1, q2⟩ := ih s' (o + cs.length) _ s2 b (Prod.ext (Prod.ext rfl p2) (Prod.ext p3 rfl))
            refine ⟨?_, q2⟩
            rw [← p1]
            refine (congrArg (cs ++ ·) q1).trans ?_
            conv => rhs; rw [← List.take_append_drop cs.length (Y.drop o)]
            rw [List.drop_drop, ← r5]
          · subst a
            dsimp only at h
            simp only [Prod.mk.injEq] at h
            refine ⟨?_, d2⟩
            rw [← h.1.1, r5]
            exact List.take_of_length_le (by simp; omega)
          · cases b
          · subst a
            dsimp only at h
            simp only [Prod.mk.injEq, Option.some.injEq] at h
            exact absurd h.1.2 b
      obtain ⟨q1, q2⟩ := key F s1 0 bs s2 h2 k1
      refine ⟨q2, ?_⟩
      rw [List.drop_zero] at q1 k2
      rw [← q1, k2]
      exact List.take_prefix _ _
  · rw [h1] at h
    rcases h with h | h | h <;> cases h

theorem piece_of_prefix {Y data : List Byte} (h : Y <+: data) (o : Nat) (bs : List Byte) (ho : o ≤ Y.length) (hb : bs = (Y.drop o).take bs.length) :
    bs = (data.drop o).take bs.length := by
  obtain ⟨t, rfl⟩ := h
  rw [List.drop_append_of_le_length ho, List.take_append_of_le_length]
  · exact hb
  · have := congrArg List.length hb
    rw [List.length_take] at this
    omega

/-- The loop, on a source that behaves: it ends, without fault in the bytes, and the verdict does not depend on the reference. -/
theorem stLoop_settles {S : LiveM} {Y : List Byte} (L : Lawful S.toSourceM Y true) (hL : LiveLaw S L) (hnice : L.nice)
    (size : Nat) (hsize : 0 < size) (threshold : Int) : ∀ f counter (s : S.St) o saves, L.At s o → saves ≤ 128 →
    (128 - saves) * (L.rankMax + 1) + L.rank s < f →
    ∃ v : SVerdict, v.Content ∧ ∀ data, Y <+: data → stLoop S data size threshold f counter s ⟨saves, o, none⟩ = v := by
  intro f
  induction f with
  | zero => intro counter s o saves _ _ h; omega
  | succ f ih =>
    intro counter s o saves hat hs hf
    obtain ⟨bs, e, s', res, o', r1, r2, r3, r4, r5, r6⟩ := hL.read size hnice rfl hat hsize
    -- after the consumer
    have key : ∀ saves', saves' ≤ 128 → (e = none → (128 - saves') * (L.rankMax + 1) + L.rank s' < f) →
        ∃ v : SVerdict, v.Content ∧ ∀ data, Y <+: data →
          (match (cCheck data o' bs).2 with
          | some e => .failed e
          | none => match e with
            | none => stLoop S data size threshold f (if counter + bs.length > threshold then 0 else counter + bs.length)
                (if counter + bs.length > threshold then S.wantSave s' else s') ⟨saves', o' + (cCheck data o' bs).1, none⟩
            | some e => if e = .eof then (if saves' > 0 then SVerdict.pass else .noCheckpoint) else .failed e) = v := by
      intro saves' hs' hf'
      rcases r6 with ⟨rfl, a, b⟩ | ⟨rfl, a⟩
      · have hat' : L.At (if counter + bs.length > threshold then S.wantSave s' else s') (o' + bs.length) := by
          split
          · exact L.at_wantSave a
          · exact a
        have hrk : L.rank (if counter + bs.length > threshold then S.wantSave s' else s') = L.rank s' := by
          split
          · exact L.rank_wantSave _
          · rfl
        obtain ⟨v, hv, hvd⟩ := ih (if counter + bs.length > threshold then 0 else counter + bs.length)
          (if counter + bs.length > threshold then S.wantSave s' else s') (o' + bs.length) saves' hat' hs' (by rw [hrk]; exact hf' rfl)
        refine ⟨v, hv, fun data hd => ?_⟩
        have hn := (cCheck_none data o' bs).2 (piece_of_prefix hd o' bs r5 r3)
        rw [hn]
        dsimp only
        rw [cCheck_count data o' bs hn]
        exact hvd data hd
      · refine ⟨if saves' > 0 then .pass else .noCheckpoint, ?_, fun data hd => ?_⟩
        · split
          · exact .inl rfl
          · exact .inr (.inl rfl)
        · have hn := (cCheck_none data o' bs).2 (piece_of_prefix hd o' bs r5 r3)
          rw [hn]
          dsimp only
          rw [if_pos rfl]
    have hread : ∀ data, ∃ ck, S.live (stHook S.toSourceM data) size s ⟨saves, o, none⟩ =
        ((bs, e), s', match res with | none => ⟨saves, o, none⟩ | some r => stNote data ck r ⟨saves, o, none⟩) := by
      intro data
      rw [stHook_eq]
      obtain ⟨ck, hck⟩ := hL.once (stNote data) size s ⟨saves, o, none⟩
      rw [r1] at hck
      exact ⟨ck, hck⟩
    rcases r4 with ⟨rfl, rfl⟩ | ⟨rfl, r4⟩
    · obtain ⟨v, hv, hvd⟩ := key saves hs (fun he => by
        rcases r6 with ⟨_, _, b⟩ | ⟨a, _⟩
        · have := b rfl; omega
        · rw [a] at he; cases he)
      refine ⟨v, hv, fun data hd => ?_⟩
      rw [← hvd data hd]
      obtain ⟨ck, hck⟩ := hread data
      conv => lhs; unfold stLoop
      rw [hck]
      dsimp only
      cases (cCheck data o' bs).2 <;> cases e <;> rfl
    · by_cases h128 : saves + 1 > 128
      · refine ⟨.tooMany, .inr (.inr rfl), fun data _ => ?_⟩
        obtain ⟨ck, hck⟩ := hread data
        unfold stLoop
        rw [hck]
        dsimp only
        have : stNote data ck (.ok (o' : Int)) ⟨saves, o, none⟩ = ⟨saves + 1, o, some .tooMany⟩ := by
          unfold stNote; dsimp only; rw [if_pos h128]
        rw [this]
      · obtain ⟨v, hv, hvd⟩ := key (saves + 1) (by omega) (fun he => by
          rcases r6 with ⟨_, a, _⟩ | ⟨a, _⟩
          · have := L.rank_le a
            have e1 : 128 - saves = (128 - (saves + 1)) + 1 := by omega
            rw [e1, Nat.add_mul] at hf
            omega
          · rw [a] at he; cases he)
        refine ⟨v, hv, fun data hd => ?_⟩
        rw [← hvd data hd]
        obtain ⟨ck, hck⟩ := hread data
        conv => lhs; unfold stLoop
        rw [hck]
        dsimp only
        have : stNote data ck (.ok (o' : Int)) ⟨saves, o, none⟩ = ⟨saves + 1, o', none⟩ := by
          unfold stNote; dsimp only
          rw [if_neg h128, (cSeek_ok data o' o').2 ⟨rfl, by have := hd.length_le; omega⟩]
        rw [this]
        dsimp only
        cases (cCheck data o' bs).2 <;> cases e <;> rfl

/-- The copy, on a source that behaves. -/
theorem stCopy_settles {S : LiveM} {Y : List Byte} (L : Lawful S.toSourceM Y true) (hI : IdleReads S) (hnice : L.nice) (F : Nat) (s : S.St) (hat : L.At s 0)
    (hF : L.rank s < F) : ∃ s2, L.Live s2 ∧ ∀ data, Y <+: data → stCopy S data F 0 s = (none, s2) := by
  have key : ∀ f (s : S.St) o, L.At s o → L.rank s < f →
      ∃ s2, L.Live s2 ∧ drain S.toSourceM (fun _ (_ : Unit) => ((), none)) 32768 f s () = ((Y.drop o, some .eof), s2, ()) := by
    intro f
    induction f with
    | zero => intro s o _ h; omega
    | succ f ih =>
      intro s o hat hf
      obtain ⟨cs, e, s', em, r1, _, _, r4, r5, r6, r7⟩ := L.read_spec (fun _ (_ : Unit) => ((), none)) 32768 () hat (by omega)
      have hle := L.at_le hat
      unfold drain
      rw [r1]
      dsimp only
      rcases r7 with ⟨a, b, c⟩ | ⟨a, b, d, d2, _⟩ | ⟨ck, x, a, b, _⟩ | ⟨x, a, b, _, _, _, h⟩
      · subst a
        dsimp only
        obtain ⟨s2, q1, q2⟩ := ih s' (o + cs.length) b (by omega)
        refine ⟨s2, q1, ?_⟩
        rw [q2]
        dsimp only
        congr 2
        conv => rhs; rw [← List.take_append_drop cs.length (Y.drop o)]
        rw [List.drop_drop, ← r5]
      · subst a
        refine ⟨s', r6, ?_⟩
        have : cs = Y.drop o := by
          rw [r5]
          exact List.take_of_length_le (by rw [List.length_drop]; omega)
        rw [this]
      · cases b
      · have := (h hnice).1
        cases this
  obtain ⟨s2, h1, h2⟩ := key F s 0 hat hF
  refine ⟨s2, h1, fun data hd => (stCopy_iff S hI data F 0 s s2).2 ⟨_, h2, ?_⟩⟩
  rw [List.drop_zero, List.drop_zero]
  exact List.prefix_iff_eq_take.1 hd

theorem sourceTest_settles {S : LiveM} {Y : List Byte} (L : Lawful S.toSourceM Y true) (hL : LiveLaw S L) (hnice : L.nice)
    (size : Nat) (hsize : 0 < size) (threshold : Int) (F : Nat) (hF : 129 * (L.rankMax + 1) ≤ F) (s : S.St) (hg : L.Good s) :
    ∃ v : SVerdict, v.Content ∧ ∀ data, Y <+: data → sourceTest S size threshold F data s = v := by
  rcases L.resume_nil hg with ⟨s1, h1, h2, _⟩ | ⟨e, s1, h1, h, _⟩
  · have hr1 := L.rank_le h2
    obtain ⟨s2, k1, k2⟩ := stCopy_settles L hL.idle hnice F s1 h2 (by omega)
    rcases L.resume_nil (L.live_good k1) with ⟨s3, h3, h4, _⟩ | ⟨e, s3, h3, h, _⟩
    · have hat := L.at_setSSC true h4
      have hr3 := L.rank_le hat
      obtain ⟨v, hv, hvd⟩ := stLoop_settles L hL hnice size hsize threshold F 0 (S.setSSC true s3) 0 0 hat (by omega) (by omega)
      refine ⟨v, hv, fun data hd => ?_⟩
      rw [← hvd data hd]
      unfold sourceTest
      rw [h1]
      dsimp only
      rw [k2 data hd]
      dsimp only
      rw [h3]
    · cases (h hnice).1
  · cases (h hnice).1

/-! ## The property -/

/-- **C71 (what a passing test has checked).** For *any* source, right or wrong, whose `Read` calls its save consumer at most once: the test
passes iff both `Resume(nil)` succeed, reading to the end gives EOF and a prefix of the reference, and the second time round every
`Resume` inside the consumer returns a position of the reference, every read delivers what the reference has from there on, the last
ends with EOF, and there were between 1 and 128 checkpoints. -/
theorem C71_pass_iff (S : LiveM) (hI : IdleReads S) (hO : CallsOnce S) (size : Nat) (threshold : Int) (F : Nat) (data : List Byte) (s : S.St) :
    sourceTest S size threshold F data s = .pass ↔
      ∃ o1 s1 bs s2 o2 s3, S.resume none s = (.ok o1, s1) ∧
        drain S.toSourceM (fun _ (_ : Unit) => ((), none)) 32768 F s1 () = ((bs, some .eof), s2, ()) ∧ bs <+: data ∧
        S.resume none s2 = (.ok o2, s3) ∧ Acceptable data 0 (watch S size threshold F 0 (S.setSSC true s3)) ∧
        1 ≤ resumes (watch S size threshold F 0 (S.setSSC true s3)) ∧ resumes (watch S size threshold F 0 (S.setSSC true s3)) ≤ 128 := by
  unfold sourceTest
  generalize h1 : S.resume none s = r1
  obtain ⟨a1, s1⟩ := r1
  cases a1 with
  | error e =>
    constructor
    · intro h; cases h
    · rintro ⟨o1, _, _, _, _, _, h, _⟩; cases h
  | ok o1 =>
    dsimp only
    generalize h2 : stCopy S data F 0 s1 = c
    obtain ⟨a2, s2⟩ := c
    cases a2 with
    | some e =>
      dsimp only
      constructor
      · intro h; cases h
      · rintro ⟨_, _, bs, s2', _, _, h, k1, k2, _⟩
        injection h with _ h
        subst h
        rw [(stCopy_iff S hI data F 0 s1 s2').2 ⟨bs, k1, by rw [List.drop_zero]; exact List.prefix_iff_eq_take.1 k2⟩] at h2
        cases h2
    | none =>
      dsimp only
      obtain ⟨bs, k1, k2⟩ := (stCopy_iff S hI data F 0 s1 s2).1 h2
      rw [List.drop_zero] at k2
      have hpre : bs <+: data := by rw [k2]; exact List.take_prefix _ _
      generalize h3 : S.resume none s2 = r3
      obtain ⟨a3, s3⟩ := r3
      have hs2 : ∀ {bs' s2'}, drain S.toSourceM (fun _ (_ : Unit) => ((), none)) 32768 F s1 () = ((bs', some .eof), s2', ()) → s2' = s2 := by
        intro bs' s2' h
        rw [k1] at h
        injection h with _ h
        injection h with h _
        exact h.symm
      cases a3 with
      | error e =>
        dsimp only
        constructor
        · intro h; cases h
        · rintro ⟨_, _, bs', s2', _, _, h, k3, _, k4, _⟩
          injection h with _ h
          subst h
          rw [hs2 k3, h3] at k4
          cases k4
      | ok o2 =>
        dsimp only
        rw [stLoop_iff S hO data size threshold F 0 _ ⟨0, 0, none⟩ rfl (by simp)]
        simp only [Nat.zero_add]
        constructor
        · rintro ⟨g1, g2, g3⟩
          exact ⟨o1, s1, bs, s2, o2, s3, rfl, k1, hpre, h3, g1, g2, g3⟩
        · rintro ⟨_, _, bs', s2', _, s3', h, k3, _, k4, g1, g2, g3⟩
          injection h with _ h
          subst h
          rw [hs2 k3, h3] at k4
          injection k4 with _ k4
          subst k4
          exact ⟨g1, g2, g3⟩

/-- **C71 (no false positives among real sources).** A seek source or a stack of decompressing sources over one, whatever faults occur and
with any budget: unless the test fails, the stream decodes without error, and to a prefix of the reference. -/
theorem C71_sound (raw : List Byte) (sched : Nat → RsAct) (start sz F : Nat) (s : SeekSt)
    (hs : s.rs.content = raw ∧ s.rs.sched = sched ∧ s.sectionStart = start ∧ s.size = sz) (hq : s.wantSave = false)
    (ls : List Layer) (hw : WellStacked ls) (hF : stackRank ls ((raw.drop start).take sz) sz ≤ F)
    (size : Nat) (threshold : Int) (budget : Nat) (data : List Byte)
    (h : (sourceTest (stackLive F ls) size threshold budget data (stackLive_eq F ls ▸ stackNew F ls s)).Content) :
    (stackDecode ls ((raw.drop start).take sz)).2 = true ∧ (stackDecode ls ((raw.drop start).take sz)).1 <+: data := by
  cases ls with
  | nil => exact sourceTest_sound (seekLawful ⟨raw, sched, start, sz⟩) seek_idle size threshold budget data s hs h
  | cons l ls =>
    obtain ⟨hlaw, hb, hw'⟩ := hw
    have hF' : stackRank ls ((raw.drop start).take sz) sz + 2 ≤ F := by
      simp only [stackRank] at hF; omega
    obtain ⟨L, k1, k2, k3, k4, k5, k6, k7⟩ := stack_lawful ⟨raw, sched, start, sz⟩ F s hs hq ls hw' (by
      show stackRank ls ((raw.drop start).take sz) sz ≤ F; omega)
    have hB : (∀ st, l.D.ask st ≠ 0) ∨ LawfulByte L := hb.imp id k1
    have hFL : L.rankMax + 2 ≤ F := by rw [k6]; exact hF'
    exact sourceTest_sound (S := wrapLive l.cfg l.D (stackM F ls) F) (wrapLawful l.cfg hlaw hB hFL) (wrap_idle l.cfg) size threshold budget data
      (stackNew F (l :: ls) s) ⟨k2, fun _ => k3⟩ h

/-- **C71 (a real source without faults is not found at fault).** If the stream decodes cleanly to `Y` and `Y` is a prefix of the reference,
the test ends and does not fail: it passes, or reports no checkpoint or more than 128 of them; and which of the three it is does not depend on
the reference. -/
theorem C71_complete (raw : List Byte) (sched : Nat → RsAct) (start sz F : Nat) (s : SeekSt)
    (hs : s.rs.content = raw ∧ s.rs.sched = sched ∧ s.sectionStart = start ∧ s.size = sz) (hq : s.wantSave = false)
    (ls : List Layer) (hw : WellStacked ls) (hF : stackRank ls ((raw.drop start).take sz) sz ≤ F) (hnice : StackNice sched ls)
    (hclean : (stackDecode ls ((raw.drop start).take sz)).2 = true)
    (size : Nat) (hsize : 0 < size) (threshold : Int) (budget : Nat) (hbud : 129 * (F + 1) ≤ budget) :
    ∃ v : SVerdict, v.Content ∧ ∀ data, (stackDecode ls ((raw.drop start).take sz)).1 <+: data →
      sourceTest (stackLive F ls) size threshold budget data (stackLive_eq F ls ▸ stackNew F ls s) = v := by
  cases ls with
  | nil =>
    exact sourceTest_settles (S := seekLive) (seekLawful ⟨raw, sched, start, sz⟩) (seek_live ⟨raw, sched, start, sz⟩) hnice size hsize threshold budget
      (Nat.le_trans (Nat.mul_le_mul_left _ (Nat.succ_le_succ hF)) hbud) s hs
  | cons l ls =>
    obtain ⟨hlaw, hb, hw'⟩ := hw
    have hF' : stackRank ls ((raw.drop start).take sz) sz + 2 ≤ F := by
      simp only [stackRank] at hF; omega
    obtain ⟨L, k1, k2, k3, k4, k5, k6, k7⟩ := stack_lawful ⟨raw, sched, start, sz⟩ F s hs hq ls hw' (by
      show stackRank ls ((raw.drop start).take sz) sz ≤ F; omega)
    have hB : (∀ st, l.D.ask st ≠ 0) ∨ LawfulByte L := hb.imp id k1
    have hFL : L.rankMax + 2 ≤ F := by rw [k6]; exact hF'
    have hrank : (wrapLawful l.cfg hlaw hB hFL).rankMax ≤ F := by
      show _ + 2 * L.rankMax + 2 ≤ F
      rw [k6]; exact hF
    have hn : NiceW L l.D := by
      cases ls with
      | nil => exact ⟨k4 hnice.1.1, k7.mpr hnice.1.2, hnice.2⟩
      | cons m ms => exact ⟨k4 hnice.1, k7.mpr hnice.2.1, hnice.2.2⟩
    have gen : ∀ (c : Bool) (hc : c = true) (Y : List Byte) (W : Lawful (wrapM l.cfg l.D (stackM F ls) F) Y c),
        LiveLaw (wrapLive l.cfg l.D (stackM F ls) F) W → W.nice → W.rankMax ≤ F → W.Good (stackNew F (l :: ls) s) →
        ∃ v : SVerdict, v.Content ∧ ∀ data, Y <+: data →
          sourceTest (wrapLive l.cfg l.D (stackM F ls) F) size threshold budget data (stackNew F (l :: ls) s) = v := by
      intro c hc Y W hW hn hr hg
      subst hc
      exact sourceTest_settles W hW hn size hsize threshold budget (Nat.le_trans (Nat.mul_le_mul_left _ (Nat.succ_le_succ hr)) hbud) _ hg
    exact gen _ hclean _ (wrapLawful l.cfg hlaw hB hFL) (wrap_live l.cfg hlaw hB hFL) hn hrank ⟨k2, fun _ => k3⟩

/-- The loop on a seek source whose stream is long enough for a checkpoint and not too long for 128. -/
theorem stLoop_seek (g : Geo) (hnice : NoFault g.sched) (size threshold : Nat) (hsize : 0 < size)
    (hmin : threshold + size < g.stream.length) (hmax : g.stream.length ≤ 128 * (threshold + 1)) (data : List Byte) (hd : g.stream <+: data) :
    ∀ f (counter : Nat) (s : SeekSt) o saves, AtS g s o → s.hasSSC = true → counter ≤ threshold →
      saves * (threshold + 1) + (if s.wantSave then threshold + 1 else 0) + counter ≤ o →
      (saves = 0 → if s.wantSave then o ≤ threshold + size else counter = o) → g.stream.length - o < f →
      stLoop seekLive data size threshold f counter s ⟨saves, o, none⟩ = .pass := by
  have hlen := Seek.stream_length g
  intro f
  induction f with
  | zero => intro counter s o saves _ _ _ _ _ h; omega
  | succ f ih =>
    intro counter s o saves hat hssc hc hbud hzero hf
    have hle := hat.2.2.1
    obtain ⟨bs, e, s', res, r1, r2, r3, r4, r5, r6, r7, r8⟩ := seek_live_read g s o size hnice hat hsize
    obtain ⟨ck, hck⟩ := seek_once (stNote data) size s ⟨saves, o, none⟩
    have hseen : seen seekLive size s = ((bs, e), s', res) := r1
    rw [hseen] at hck
    have hread : seekLive.live (stHook seekLive.toSourceM data) size s ⟨saves, o, none⟩ = ((bs, e), s',
        match (generalizing := false) res with | none => ⟨saves, o, none⟩ | some r => stNote data ck r ⟨saves, o, none⟩) := hck
    have hn := (cCheck_none data o bs).2 (piece_of_prefix hd o bs r5 r3)
    have hct := cCheck_count data o bs hn
    obtain ⟨saves', hsv⟩ : ∃ k, k = saves + (if s.wantSave = true ∧ o ≠ g.size then 1 else 0) := ⟨_, rfl⟩
    -- the consumer ran iff a save was pending and there was something left to read
    have hx : (match (generalizing := false) res with | none => (⟨saves, o, none⟩ : STest) | some r => stNote data ck r ⟨saves, o, none⟩) = ⟨saves', o, none⟩ := by
      by_cases hog : o = g.size
      · have : res = none := by
          have hz : s.size - s.offset = 0 := by rw [hat.1.2.2.2, hat.2.1]; omega
          obtain ⟨b, hb, _⟩ := hat.2.2.2
          have : Seek.readLive (resumeHook seekM fun _ r _ => some r) size s none = (([], some .eof), s, none) := by
            unfold Seek.readLive
            simp only [hb]
            rw [if_neg (by omega), if_pos hz]
          rw [this] at r1
          injection r1 with _ r1
          injection r1 with _ r1
          exact r1.symm
        rw [this, hsv, if_neg (fun h => h.2 hog)]
        rfl
      · obtain ⟨_, h2⟩ := r7 hog
        rw [hssc] at h2
        cases hw : s.wantSave with
        | false =>
          rw [hw] at h2
          cases res with
          | some r => cases h2
          | none => rw [hsv, hw]; simp
        | true =>
          rw [hw] at h2 hbud hsv
          rcases r4 with h | h
          · rw [h] at h2; cases h2
          · rw [h]
            dsimp only
            rw [if_pos ⟨rfl, hog⟩] at hsv
            rw [if_pos rfl] at hbud
            have h128 : ¬ saves + 1 > 128 := by
              intro h
              have h2 : 128 * (threshold + 1) ≤ saves * (threshold + 1) := Nat.mul_le_mul_right _ (by omega)
              omega
            unfold stNote
            dsimp only
            rw [if_neg h128, (cSeek_ok data o o).2 ⟨rfl, by have := hd.length_le; omega⟩, hsv]
    refine (stLoop.eq_2 seekLive data size threshold counter s ⟨saves, o, none⟩ f).trans ?_
    rw [hread, hx]
    dsimp only
    rw [hn]
    dsimp only
    rcases r6 with ⟨rfl, a, b⟩ | ⟨rfl, a⟩
    · have hl : 0 < bs.length := List.length_pos_iff.mpr b
      have hle' := a.2.2.1
      have hog : o ≠ g.size := by omega
      obtain ⟨h1, _⟩ := r7 hog
      dsimp only
      have hsv' : saves' = saves + (if s.wantSave = true then 1 else 0) := by
        rw [hsv]
        by_cases hw : s.wantSave = true
        · rw [if_pos ⟨hw, hog⟩, if_pos hw]
        · rw [if_neg (fun h => hw h.1), if_neg hw]
      have hbud' : saves' * (threshold + 1) + counter ≤ o := by
        rw [hsv']
        split at hbud
        · rename_i hw; rw [if_pos hw, Nat.add_mul]; omega
        · rename_i hw; rw [if_neg hw]; omega
      rw [hct]
      by_cases hthr : (counter : Int) + bs.length > threshold
      · rw [if_pos hthr, show (ite (α := seekLive.St) ((counter : Int) + bs.length > threshold) (seekLive.wantSave s') s') = seekLive.wantSave s' from if_pos hthr]
        refine ih 0 { s' with wantSave := true } (o + bs.length) saves' a (by rw [show (SeekSt.hasSSC { s' with wantSave := true }) = s'.hasSSC from rfl, r8, hssc])
          (by omega) ?_ ?_ (by omega)
        · rw [if_pos rfl]; omega
        · intro hz
          rw [if_pos rfl]
          have hsw : saves = 0 ∧ ¬ s.wantSave = true := by
            by_cases hw : s.wantSave = true
            · rw [if_pos hw] at hsv'; omega
            · rw [if_neg hw] at hsv'; exact ⟨by omega, hw⟩
          have := hzero hsw.1
          rw [if_neg hsw.2] at this
          omega
      · rw [if_neg hthr, show (ite (α := seekLive.St) ((counter : Int) + bs.length > threshold) (seekLive.wantSave s') s') = s' from if_neg hthr]
        have hcast : (counter : Int) + bs.length = ((counter + bs.length : Nat) : Int) := by omega
        rw [hcast]
        refine ih (counter + bs.length) s' (o + bs.length) saves' a (by rw [r8, hssc]) (by omega) ?_ ?_ (by omega)
        · rw [h1]; simp; omega
        · intro hz
          rw [h1]
          have hsw : saves = 0 ∧ ¬ s.wantSave = true := by
            by_cases hw : s.wantSave = true
            · rw [if_pos hw] at hsv'; omega
            · rw [if_neg hw] at hsv'; exact ⟨by omega, hw⟩
          have := hzero hsw.1
          rw [if_neg hsw.2] at this
          simp; omega
    · dsimp only
      rw [if_pos rfl, if_pos]
      apply Nat.pos_of_ne_zero
      intro hz
      have h0 : saves = 0 := by omega
      have := hzero h0
      by_cases hw : s.wantSave = true
      · rw [if_pos hw] at this
        rw [hsv, if_pos ⟨hw, by omega⟩] at hz
        omega
      · rw [if_neg hw] at this
        omega

/-- **C71 (a seek source passes).** Over a file without faults, the source test with a reference that begins with the stream passes,
provided the stream is longer than one threshold and one buffer and at most 128 thresholds long (with the code's constants: more than 272
KiB, at most 32 MiB). -/
theorem C71_seek_passes (raw : List Byte) (sched : Nat → RsAct) (start sz : Nat) (s : SeekSt)
    (hs : s.rs.content = raw ∧ s.rs.sched = sched ∧ s.sectionStart = start ∧ s.size = sz) (hq : s.wantSave = false) (hnice : NoFault sched)
    (hmin : 278528 < ((raw.drop start).take sz).length) (hmax : ((raw.drop start).take sz).length ≤ 33554432)
    (budget : Nat) (hbud : sz < budget) (data : List Byte) (hd : (raw.drop start).take sz <+: data) :
    runSourceTest seekLive budget data s = .pass := by
  have hlen := Seek.stream_length ⟨raw, sched, start, sz⟩
  unfold runSourceTest sourceTest
  rcases Seek.resume_nil_spec ⟨raw, sched, start, sz⟩ s hs with ⟨s1, h1, h2, h3, h4⟩ | ⟨e, s1, h1, h, _⟩
  · rw [show seekLive.resume none s = _ from h1]
    dsimp only
    have hr1 : (seekLawful ⟨raw, sched, start, sz⟩).rank s1 < budget :=
      Nat.lt_of_le_of_lt ((seekLawful ⟨raw, sched, start, sz⟩).rank_le h2) hbud
    -- the copy leaves nothing pending
    have keep : ∀ f (t : SeekSt) o, AtS ⟨raw, sched, start, sz⟩ t o → t.wantSave = false →
        (drain seekM (fun _ (_ : Unit) => ((), none)) 32768 f t ()).2.1.wantSave = false := by
      intro f
      induction f with
      | zero => intro t o _ h; exact h
      | succ f ih =>
        intro t o hat hw
        obtain ⟨bs, e, s', em, r1, r2, r3, r4, r5, r6, r7, r8⟩ := Seek.read_spec ⟨raw, sched, start, sz⟩ (fun _ (_ : Unit) => ((), none)) t o 32768 () hat (by omega)
        have hw' : s'.wantSave = false := by rw [r4]; split <;> first | exact hw | rfl
        rw [show drain seekM (fun _ (_ : Unit) => ((), none)) 32768 (f + 1) t () = _ from drain.eq_2 seekM (fun _ (_ : Unit) => ((), none)) 32768 t () f]
        rw [show seekM.read (fun _ (_ : Unit) => ((), none)) 32768 t () = _ from r1]
        dsimp only
        cases e with
        | some e => exact hw'
        | none => exact ih s' _ r7 hw'
    obtain ⟨s2, k1, k2⟩ := stCopy_settles (S := seekLive) (seekLawful ⟨raw, sched, start, sz⟩) seek_idle hnice budget s1 h2 hr1
    have k3 := k2 data hd
    have hw2 : SeekSt.wantSave s2 = false := by
      obtain ⟨bs, q1, _⟩ := (stCopy_iff seekLive seek_idle data budget 0 s1 s2).1 k3
      have := keep budget s1 0 h2 (h4.trans hq)
      rw [show drain seekM (fun _ (_ : Unit) => ((), none)) 32768 budget s1 () = _ from q1] at this
      exact this
    rw [k3]
    dsimp only
    rcases Seek.resume_nil_spec ⟨raw, sched, start, sz⟩ s2 k1.1 with ⟨s3, g1, g2, g3, g4⟩ | ⟨e, s3, g1, g, _⟩
    · rw [show seekLive.resume none s2 = _ from g1]
      dsimp only
      exact stLoop_seek ⟨raw, sched, start, sz⟩ hnice 16384 262144 (by omega) hmin (Nat.le_trans hmax (by omega)) data hd budget 0
        { s3 with hasSSC := true } 0 0 g2 rfl (by omega) (by
          rw [show SeekSt.wantSave { s3 with hasSSC := true } = s3.wantSave from rfl, g4, hw2]; simp) (by
          intro _; rw [show SeekSt.wantSave { s3 with hasSSC := true } = s3.wantSave from rfl, g4, hw2]; simp) (by
          have : Geo.size ⟨raw, sched, start, sz⟩ = sz := rfl
          omega)
    · exact absurd hnice g
  · exact absurd hnice h

/-! ## C72: does the test see that bytes are missing? -/

/-- **C72, what holds.** A seek source or stack of decompressing sources that passes delivers, without error, a *prefix* of the reference. Missing
for the full property: that the prefix is all of it. -/
theorem C72_prefix_partial (raw : List Byte) (sched : Nat → RsAct) (start sz F : Nat) (s : SeekSt)
    (hs : s.rs.content = raw ∧ s.rs.sched = sched ∧ s.sectionStart = start ∧ s.size = sz) (hq : s.wantSave = false)
    (ls : List Layer) (hw : WellStacked ls) (hF : stackRank ls ((raw.drop start).take sz) sz ≤ F)
    (size : Nat) (threshold : Int) (budget : Nat) (data : List Byte)
    (h : sourceTest (stackLive F ls) size threshold budget data (stackLive_eq F ls ▸ stackNew F ls s) = .pass) :
    (stackDecode ls ((raw.drop start).take sz)).2 = true ∧ (stackDecode ls ((raw.drop start).take sz)).1 <+: data :=
  C71_sound raw sched start sz F s hs hq ls hw hF size threshold budget data (.inl h)

/-- **C72 is false as it stands.** The test does not notice that the stream ends early: a source that passes with a reference passes with every
longer reference. -/
theorem C72_false_truncated (raw : List Byte) (sched : Nat → RsAct) (start sz F : Nat) (s : SeekSt)
    (hs : s.rs.content = raw ∧ s.rs.sched = sched ∧ s.sectionStart = start ∧ s.size = sz) (hq : s.wantSave = false)
    (ls : List Layer) (hw : WellStacked ls) (hF : stackRank ls ((raw.drop start).take sz) sz ≤ F) (hnice : StackNice sched ls)
    (size : Nat) (hsize : 0 < size) (threshold : Int) (budget : Nat) (hbud : 129 * (F + 1) ≤ budget) (data more : List Byte)
    (h : sourceTest (stackLive F ls) size threshold budget data (stackLive_eq F ls ▸ stackNew F ls s) = .pass) :
    sourceTest (stackLive F ls) size threshold budget (data ++ more) (stackLive_eq F ls ▸ stackNew F ls s) = .pass := by
  obtain ⟨h1, h2⟩ := C71_sound raw sched start sz F s hs hq ls hw hF size threshold budget data (.inl h)
  obtain ⟨v, _, hv⟩ := C71_complete raw sched start sz F s hs hq ls hw hF hnice h1 size hsize threshold budget hbud
  rw [hv _ (h2.trans (List.prefix_append _ _)), ← hv _ h2]
  exact h

/-! ## Cases -/

/-- A source over a string of bytes. -/
def sample : List Byte := (List.range 40).map fun i => UInt8.ofNat i

/-- The test with a buffer of 4 bytes and a threshold of 9: three checkpoints; it passes with its bytes, with more of them, fails when a
byte differs, when the reference is shorter. -/
example : sourceTest seekLive 4 9 6000 sample (Seek.fromBytes sample) = .pass ∧
    sourceTest seekLive 4 9 6000 (sample ++ [0]) (Seek.fromBytes sample) = .pass ∧
    sourceTest seekLive 4 9 6000 (sample.set 30 0) (Seek.fromBytes sample) = .failed (.wrapped (.consumer 7)) ∧
    sourceTest seekLive 4 9 6000 (sample.take 39) (Seek.fromBytes sample) = .failed (.wrapped (.consumer 6)) ∧
    sourceTest seekLive 4 100 6000 sample (Seek.fromBytes sample) = .noCheckpoint ∧
    resumes (watch seekLive 4 9 6000 0 { Seek.fromBytes sample with br := some .fresh, hasSSC := true }) = 3 := by decide +kernel

/-- A toy "gzip in bzip2" file decoding to `[8, 10, 12, 14]`. -/
def toyFile : List Byte := [2, 0, 6, 1, 0, 1, 8, 1, 0, 1, 10, 1, 0, 1, 12, 1, 255, 0]

/-- The test of the stack over it: with a buffer of one byte and a checkpoint after each byte. -/
example : sourceTest (stackLive 100 toyStack) 1 0 20000 [8, 10, 12, 14] (stackNew 100 toyStack (Seek.fromBytes toyFile)) = .pass ∧
    sourceTest (stackLive 100 toyStack) 1 0 20000 [8, 10, 12, 14, 16] (stackNew 100 toyStack (Seek.fromBytes toyFile)) = .pass ∧
    sourceTest (stackLive 100 toyStack) 1 0 20000 [8, 10, 13, 14] (stackNew 100 toyStack (Seek.fromBytes toyFile)) =
      .failed (.wrapped (.consumer 7)) := by decide +kernel

/-- It meets the hypotheses of the theorems. -/
example : WellStacked toyStack ∧ stackRank toyStack ((toyFile.drop 0).take 18) 18 ≤ 100 ∧ StackNice (fun _ => RsAct.full) toyStack ∧
    stackDecode toyStack ((toyFile.drop 0).take 18) = ([8, 10, 12, 14], true) ∧
    (Seek.fromBytes toyFile).wantSave = false := ⟨toyStack_well.1, by decide +kernel, toyStack_well.2.2.1, by rfl, rfl⟩

/-- C71_seek_passes applies to every buffer of 300 000 bytes, and to 32 MiB. -/
example (b : Byte) : runSourceTest seekLive 300001 (List.replicate 300000 b) (Seek.fromBytes (List.replicate 300000 b)) = .pass := by
  refine C71_seek_passes (List.replicate 300000 b) (fun _ => .full) 0 300000 _ ⟨rfl, rfl, rfl, ?_⟩ rfl (fun _ => rfl) ?_ ?_ _ (by omega) _ ?_
  · show ((List.replicate 300000 b).length : Int) = _
    rw [List.length_replicate]
  · rw [List.drop_zero, List.length_take, List.length_replicate]; omega
  · rw [List.drop_zero, List.length_take, List.length_replicate]; omega
  · rw [List.drop_zero, List.take_of_length_le (by rw [List.length_replicate]; exact Nat.le_refl _)]
    exact List.prefix_rfl

end Savior
