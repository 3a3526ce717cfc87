import Verif.ZipResume
/-!
# An invariant rule for whole zip extractions, covering every outcome
-/

namespace Savior

section
variable {K : SinkM} {V : SaveCons}

/-- The state in which an entry's closure runs (proof helper: zipextractor.go:172-177). -/
def zipEnter (i : Nat) (zf : ZFile) (w : XW K V) : XW K V :=
  { w with ck := { w.ck with entryIndex := i, entry := some (w.ck.entry.getD (zipFileEntry zf)) } }

/-- The state after an entry (proof helper: zipextractor.go:325, 333-334). -/
def zipNext (zf : ZFile) (w : XW K V) : XW K V :=
  { w with done := wrap64 (w.done + zf.usize), ck := { w.ck with srcCk := none, entry := none } }

/-- The entry's offset reset (proof helper: zipextractor.go:236). -/
def zipZero (w : XW K V) : XW K V := { w with ck := { w.ck with entry := w.ck.entry.map fun e => { e with woff := 0 } } }

/-- Where the source of the entry about to be extracted starts. -/
def StartsAt (A : Archive) (D : Decomp) (zf : ZFile) (ck : ECkpt) (o : Nat) : Prop :=
  (ck.srcCk = none ∧ o = 0) ∨ (∃ c, ck.srcCk = some c ∧ fileCk A D zf c o)

/-- What has to be checked of each step of an extraction: `Beg i` holds at the head of the loop before member `i`,
`Mid i o0 o` while copying member `i` (started at `o0`, now at `o`), `Cop i xs` while copying a member opened through the
zip package (`xs` written), `Bad` whenever the extraction ends early. -/
structure ZipSteps (A : Archive) (D : Decomp) (env : ZEnv) (total : Int) (K : SinkM) (V : SaveCons) where
  Beg : Nat → XW K V → Prop
  Mid : Nat → Nat → Nat → XW K V → Prop
  Cop : Nat → List Byte → XW K V → Prop
  Bad : XW K V → Prop
  beg_bad : ∀ i w, Beg i w → Bad w
  beg_kind : ∀ i zf w, Beg i w → A.files[i]? = some zf → (w.ck.entry.getD (zipFileEntry zf)).kind = (zipFileEntry zf).kind
  beg_src : ∀ i zf w, Beg i w → A.files[i]? = some zf → zf.resumable → (zipFileEntry zf).kind = .file → ∃ o, StartsAt A D zf w.ck o
  enter_bad : ∀ i zf w, Beg i w → A.files[i]? = some zf → Bad (zipEnter i zf w)
  zero_bad : ∀ i zf w, Beg i w → A.files[i]? = some zf → zf.encrypted = false → (zipFileEntry zf).kind = .file → ¬ zf.resumable → Bad (zipZero (zipEnter i zf w))
  mkdir : ∀ i zf w, Beg i w → A.files[i]? = some zf → zf.encrypted = false → (zipFileEntry zf).kind = .dir → ∀ w',
    w' = ({ zipEnter i zf w with sink := (K.mkdir (w.ck.entry.getD (zipFileEntry zf)) w.sink).2 }).say
      (.mkdir (w.ck.entry.getD (zipFileEntry zf)) (K.mkdir (w.ck.entry.getD (zipFileEntry zf)) w.sink).1) →
    ((K.mkdir (w.ck.entry.getD (zipFileEntry zf)) w.sink).1 = none → Beg (i + 1) (zipNext zf w')) ∧
    ((K.mkdir (w.ck.entry.getD (zipFileEntry zf)) w.sink).1 ≠ none → Bad w')
  symlink : ∀ i zf w chunks, Beg i w → A.files[i]? = some zf → zf.encrypted = false → (zipFileEntry zf).kind = .symlink →
    env.opens i = .ok (chunks, none) → ∀ w',
    w' = ({ zipEnter i zf w with sink := (K.symlink (w.ck.entry.getD (zipFileEntry zf)) chunks.flatten w.sink).2 }).say
      (.symlink (w.ck.entry.getD (zipFileEntry zf)) chunks.flatten (K.symlink (w.ck.entry.getD (zipFileEntry zf)) chunks.flatten w.sink).1) →
    ((K.symlink (w.ck.entry.getD (zipFileEntry zf)) chunks.flatten w.sink).1 = none → Beg (i + 1) (zipNext zf w')) ∧
    ((K.symlink (w.ck.entry.getD (zipFileEntry zf)) chunks.flatten w.sink).1 ≠ none → Bad w')
  open_ : ∀ i zf w o0 oc, Beg i w → A.files[i]? = some zf → zf.encrypted = false → (zipFileEntry zf).kind = .file → zf.resumable →
    StartsAt A D zf w.ck o0 →
    (∀ wo, (w.ck.entry.getD (zipFileEntry zf)).woff = wo → (wo = o0 ∨ wo = 0 → oc = o0 ∨ oc = 0) ∧ (wo = o0 → oc = o0) ∧ ((o0 : Int) ≤ wo → (oc : Int) = wo)) →
    ((zipOpen (zipEnter i zf w)).1 = none → (w.ck.entry.getD (zipFileEntry zf)).woff ≤ oc → oc ≤ (zipContent A D zf).1.length →
      Mid i o0 oc { (zipOpen (zipEnter i zf w)).2 with stop := false }) ∧
    ((zipOpen (zipEnter i zf w)).1 ≠ none → Bad (zipOpen (zipEnter i zf w)).2)
  save : ∀ i zf w o0 o c, Mid i o0 o w → A.files[i]? = some zf → 0 < o → (D.Exact → o0 < o) → fileCk A D zf c o → w.stop = false →
    w.stop = w.stopErr → (∃ n u, (V.shouldSave n u).1 = true) → Mid i o0 o (zipOnSave total c w).1
  write : ∀ i zf w o0 o bs, Mid i o0 o w → A.files[i]? = some zf → bs = ((zipContent A D zf).1.drop o).take bs.length →
    o + bs.length ≤ (zipContent A D zf).1.length →
    ((w.write bs).1.2 = none → Mid i o0 (o + bs.length) (w.write bs).2) ∧ ((w.write bs).1.2 ≠ none → Bad (w.write bs).2)
  should : ∀ i w o0 o n, Mid i o0 o w → Mid i o0 o { w with cons := (V.shouldSave n w.cons).2 }
  emit : ∀ i w o0 o, Mid i o0 o w → Mid i o0 o (w.say (.progress (zipProgress total w)))
  mid_bad : ∀ i w o0 o, Mid i o0 o w → Bad w
  mid_stop : ∀ i zf w o0 o, Mid i o0 o w → A.files[i]? = some zf → w.stopErr = true → Bad (zipNext zf w)
  mid_end : ∀ i zf w o0, Mid i o0 (zipContent A D zf).1.length w → A.files[i]? = some zf → (zipContent A D zf).2 = true →
    w.stopErr = false → Beg (i + 1) (zipNext zf w)
  copy : ∀ i zf w, Beg i w → A.files[i]? = some zf → zf.encrypted = false → (zipFileEntry zf).kind = .file → ¬ zf.resumable →
    ((zipOpen (zipZero (zipEnter i zf w))).1 = none → Cop i [] (zipOpen (zipZero (zipEnter i zf w))).2) ∧
    ((zipOpen (zipZero (zipEnter i zf w))).1 ≠ none → Bad (zipOpen (zipZero (zipEnter i zf w))).2)
  copy_write : ∀ i w xs bs, Cop i xs w → bs ≠ [] →
    ((w.write bs).1.2 = none → (w.write bs).1.1 = bs.length → Cop i (xs ++ bs) (w.write bs).2) ∧ Bad (w.write bs).2
  copy_bad : ∀ i w xs, Cop i xs w → Bad w
  copy_end : ∀ i zf w chunks, Cop i chunks.flatten w → A.files[i]? = some zf → env.opens i = .ok (chunks, none) →
    Beg (i + 1) (zipNext zf w)

variable {A : Archive} {D : Decomp} {env : ZEnv} {total : Int}

theorem ioCopy_steps (P : ZipSteps A D env total K V) (i : Nat) : ∀ (chunks : List (List Byte)) (e : Option Err) (xs : List Byte)
    (w : XW K V), P.Cop i xs w →
    ((ioCopy chunks e w).1 = none → e = none ∧ P.Cop i (xs ++ chunks.flatten) (ioCopy chunks e w).2) ∧
    ((ioCopy chunks e w).1 ≠ none → P.Bad (ioCopy chunks e w).2) ∧ (ioCopy chunks e w).2.stopErr = w.stopErr ∧
    (ioCopy chunks e w).2.stop = w.stop := by
  intro chunks
  induction chunks with
  | nil =>
    intro e xs w h
    unfold ioCopy
    exact ⟨fun h1 => ⟨h1, by simpa using h⟩, fun _ => P.copy_bad _ _ _ h, rfl, rfl⟩
  | cons c cs ih =>
    intro e xs w h
    unfold ioCopy
    by_cases hc : c = []
    · subst hc
      simp only [if_true]
      simpa using ih e xs w h
    · simp only [if_neg hc]
      have hw := P.copy_write i w xs c h hc
      cases hwe : (w.write c).1.2 with
      | some x => exact ⟨by simp, fun _ => hw.2, rfl, rfl⟩
      | none =>
        simp only
        by_cases hn : (w.write c).1.1 = c.length
        · rw [if_neg (by simpa using hn)]
          have hst : (w.write c).2.stopErr = w.stopErr ∧ (w.write c).2.stop = w.stop := ⟨rfl, rfl⟩
          have := ih e (xs ++ c) _ (hw.1 hwe hn)
          rw [hst.1, hst.2] at this
          simpa using this
        · rw [if_pos hn]
          exact ⟨by simp, fun _ => hw.2, rfl, rfl⟩

/-- One entry. -/
theorem zipEntry_steps {F : Nat} (hwf : ZipWF A D F) (P : ZipSteps A D env total K V) (i : Nat) (zf : ZFile)
    (hzf : A.files[i]? = some zf) (w : XW K V) (hb : P.Beg i w) (hse : w.stopErr = false) (r : Option Err × XW K V)
    (hr : zipEntry A env D F total i zf w = r) :
    (r.1 ≠ none → P.Bad r.2) ∧
    (r.1 = none → ∃ w', { r.2 with ck := { r.2.ck with srcCk := none, entry := none } } = zipNext zf w' ∧ w'.stopErr = r.2.stopErr ∧
      (r.2.stopErr = false → P.Beg (i + 1) (zipNext zf w')) ∧ (r.2.stopErr = true → P.Bad (zipNext zf w'))) := by
  subst hr
  have hmem : zf ∈ A.files := List.mem_of_getElem? hzf
  have hcs := hwf.csize zf hmem
  have hbud := hwf.budget zf hmem
  unfold zipEntry
  simp only
  have henter : { w with ck := { w.ck with entryIndex := (i : Int), entry := some (w.ck.entry.getD (zipFileEntry zf)) } } = zipEnter i zf w := rfl
  rw [henter]
  cases henc : zf.encrypted with
  | true =>
    simp only [if_true]
    exact ⟨fun _ => P.enter_bad i zf w hb hzf, by simp⟩
  | false =>
    simp only [Bool.false_eq_true, if_false]
    have hk := P.beg_kind i zf w hb hzf
    -- reduce to a statement about the inner result
    have hgen : ∀ r : Option Err × XW K V, ((r.1 ≠ none → P.Bad r.2) ∧
        (r.1 = none → (r.2.stopErr = false → P.Beg (i + 1) (zipNext zf r.2)) ∧ (r.2.stopErr = true → P.Bad (zipNext zf r.2)))) →
        (((match r.1 with
        | some e => (some e, r.2)
        | none => (none, { r.2 with done := wrap64 (r.2.done + zf.usize) })).1 ≠ none → P.Bad (match r.1 with
        | some e => (some e, r.2)
        | none => (none, { r.2 with done := wrap64 (r.2.done + zf.usize) })).2) ∧
        ((match r.1 with
        | some e => (some e, r.2)
        | none => (none, { r.2 with done := wrap64 (r.2.done + zf.usize) })).1 = none → ∃ w', { (match r.1 with
        | some e => (some e, r.2)
        | none => (none, { r.2 with done := wrap64 (r.2.done + zf.usize) })).2 with ck := { (match r.1 with
        | some e => (some e, r.2)
        | none => (none, { r.2 with done := wrap64 (r.2.done + zf.usize) })).2.ck with srcCk := none, entry := none } } = zipNext zf w' ∧
          w'.stopErr = (match r.1 with
        | some e => (some e, r.2)
        | none => (none, { r.2 with done := wrap64 (r.2.done + zf.usize) })).2.stopErr ∧
          ((match r.1 with
        | some e => (some e, r.2)
        | none => (none, { r.2 with done := wrap64 (r.2.done + zf.usize) })).2.stopErr = false → P.Beg (i + 1) (zipNext zf w')) ∧
        ((match r.1 with
        | some e => (some e, r.2)
        | none => (none, { r.2 with done := wrap64 (r.2.done + zf.usize) })).2.stopErr = true → P.Bad (zipNext zf w')))) := by
      rintro ⟨re, rw'⟩ h
      cases re with
      | some e => exact ⟨fun _ => h.1 (by simp), by simp⟩
      | none => exact ⟨by simp, fun _ => ⟨rw', rfl, rfl, (h.2 rfl).1, (h.2 rfl).2⟩⟩
    refine hgen _ ?_
    clear hgen
    rw [hk]
    cases hkind : (zipFileEntry zf).kind with
    | dir =>
      simp only
      have := P.mkdir i zf w hb hzf henc hkind _ rfl
      refine ⟨fun h => this.2 (by simpa using h), fun h => ⟨fun _ => this.1 (by simpa using h), fun h' => ?_⟩⟩
      have : w.stopErr = true := h'
      rw [hse] at this; cases this
    | symlink =>
      simp only
      cases ho : env.opens i with
      | error x => exact ⟨fun _ => P.enter_bad i zf w hb hzf, by simp⟩
      | ok p =>
        obtain ⟨chunks, e⟩ := p
        cases e with
        | some x => exact ⟨fun _ => P.enter_bad i zf w hb hzf, by simp⟩
        | none =>
          simp only
          have := P.symlink i zf w chunks hb hzf henc hkind ho _ rfl
          refine ⟨fun h => this.2 (by simpa using h), fun h => ⟨fun _ => this.1 (by simpa using h), fun h' => ?_⟩⟩
          have : w.stopErr = true := h'
          rw [hse] at this; cases this
    | file =>
      simp only
      by_cases hrs : zf.resumable
      · rcases zipFile_src (K := K) (V := V) hwf.law env total i zf hrs hcs hbud with ⟨⟨x, hx⟩, _⟩ | ⟨S, L, src, h1, h2, h3, h4, h5, _, h6⟩
        · rw [hx]
          exact ⟨fun _ => P.enter_bad i zf w hb hzf, by simp⟩
        · rw [h1]
          obtain ⟨o0, hst⟩ := P.beg_src i zf w hb hzf hrs hkind
          have key := (zipRunFile_rule L total F h5 src (zipEnter i zf w) (w.ck.entry.getD (zipFileEntry zf))
            (w.ck.entry.getD (zipFileEntry zf)).woff o0 (fun o w => P.Mid i o0 o w ∧ w.stop = w.stopErr) P.Bad h2 h3 rfl rfl ?_ ?_ ?_ ?_ ?_ ?_).1
          · generalize hR : zipRunFile S F total src (zipEnter i zf w) = R at *
            obtain ⟨re, rw'⟩ := R
            simp only at key ⊢
            rcases key with ⟨g1, g2⟩ | ⟨g1, g2, g3⟩ | ⟨o', g1, ⟨g2, g3⟩, g4⟩ | ⟨g1, g2⟩
            · subst g2
              exact ⟨fun _ => P.enter_bad i zf w hb hzf, fun h => absurd h g1⟩
            · subst g3
              refine ⟨fun _ => ?_, fun h => absurd h g1⟩
              refine (P.open_ i zf w o0 (if (o0 : Int) ≤ (w.ck.entry.getD (zipFileEntry zf)).woff then (w.ck.entry.getD (zipFileEntry zf)).woff.toNat else o0)
                hb hzf henc hkind hrs hst ?_).2 g2
              intro wo hwo
              rw [hwo]
              split <;> omega
            · refine ⟨fun _ => P.mid_bad _ _ _ _ g2, fun h => ⟨fun h' => ?_, fun h' => ?_⟩⟩
              · rcases g4 h with h'' | ⟨h'', h3⟩
                · rw [g3, h'] at h''; cases h''
                · subst h''; exact P.mid_end i zf rw' o0 g2 hzf h3 h'
              · exact P.mid_stop i zf rw' o0 o' g2 hzf h'
            · exact ⟨fun _ => g2, fun h => absurd h g1⟩
          · rcases hst with h | ⟨c, h, h'⟩
            · exact Or.inl h
            · exact Or.inr ⟨c, h, (h4 c o0).mpr h'⟩
          · intro oc hoc1 hoc2 hoc5 hoc3 hoc4 hop
            refine ⟨(P.open_ i zf w o0 oc hb hzf henc hkind hrs hst ?_).1 hop hoc3 hoc4, ?_⟩
            · intro wo hwo; subst hwo; exact ⟨hoc1, hoc2, hoc5⟩
            · have : ∀ w'' : XW K V, w''.stopErr = false → (zipOpen w'').2.stopErr = false := by
                intro w'' h
                unfold zipOpen
                split <;> exact h
              exact (this (zipEnter i zf w) hse).symm
          · intro oc _ hex o w' c hinv hlt hc hstop hever
            refine ⟨P.save i zf w' o0 o c hinv.1 hzf (by omega) (fun h => ?_) ((h4 c o).mp hc) hstop hinv.2 hever, ?_⟩
            · have := hex (h6 h); omega
            · have := hinv.2
              unfold zipOnSave
              simp only
              split
              · exact this
              · split
                · exact this
                · rfl
                · exact this
          · intro o w' bs hinv hbs hol
            have := P.write i zf w' o0 o bs hinv.1 hzf hbs hol
            exact ⟨fun h => ⟨this.1 h, hinv.2⟩, this.2⟩
          · intro o w' n hinv; exact ⟨P.should _ _ _ _ _ hinv.1, hinv.2⟩
          · intro o w' hinv; exact ⟨P.emit _ _ _ _ hinv.1, hinv.2⟩
      · have hzc : ∀ w' : XW K V, zipFile A env D F total i zf w' = zipCopyFile env i w' := by
          intro w'
          unfold zipFile
          unfold ZFile.resumable at hrs
          cases hm : zf.method <;> simp [hm] at hrs ⊢
        rw [hzc]
        unfold zipCopyFile
        have hz : { zipEnter i zf w with ck := { (zipEnter i zf w).ck with entry := (zipEnter i zf w).ck.entry.map fun e => { e with woff := 0 } } } = zipZero (zipEnter i zf w) := rfl
        simp only [hz]
        cases ho : env.opens i with
        | error x => exact ⟨fun _ => P.zero_bad i zf w hb hzf henc hkind hrs, by simp⟩
        | ok p =>
          obtain ⟨chunks, e⟩ := p
          simp only
          have hc := P.copy i zf w hb hzf henc hkind hrs
          have hse' : (zipOpen (zipZero (zipEnter i zf w))).2.stopErr = false := by
            unfold zipOpen
            split <;> exact hse
          generalize zipOpen (zipZero (zipEnter i zf w)) = G at *
          obtain ⟨ge, gw⟩ := G
          simp only at hc hse' ⊢
          cases ge with
          | some x => exact ⟨fun _ => hc.2 (by simp), by simp⟩
          | none =>
            simp only
            obtain ⟨a1, a2, a3, a4⟩ := ioCopy_steps P i chunks e [] gw (hc.1 rfl)
            refine ⟨fun h => a2 (by simpa using h), fun h => ?_⟩
            obtain ⟨b1, b2⟩ := a1 (by simpa using h)
            subst b1
            refine ⟨fun _ => P.copy_end i zf _ chunks (by simpa using b2) hzf ho, fun h' => ?_⟩
            rw [a3, hse'] at h'; cases h'

/-- The whole loop. -/
theorem zipLoop_steps {F : Nat} (hwf : ZipWF A D F) (P : ZipSteps A D env total K V) :
    ∀ (fs : List ZFile) (i : Nat) (w : XW K V), fs = A.files.drop i → w.stopErr = false → P.Beg i w →
    P.Bad (zipLoop A env D F total fs i w).2 ∧
    ((zipLoop A env D F total fs i w).1 = none → (zipLoop A env D F total fs i w).2.stopErr = false →
      ∃ j, A.files.length ≤ j ∧ i ≤ j ∧ P.Beg j (zipLoop A env D F total fs i w).2) := by
  intro fs
  induction fs with
  | nil =>
    intro i w hfs _ hb
    unfold zipLoop
    exact ⟨P.beg_bad i w hb, fun _ _ => ⟨i, List.drop_eq_nil_iff.mp hfs.symm, Nat.le_refl _, hb⟩⟩
  | cons zf fs ih =>
    intro i w hfs hse hb
    have hi : A.files[i]? = some zf := by
      have := congrArg List.head? hfs
      rw [List.head?_drop] at this
      exact this.symm
    have hfs' : fs = A.files.drop (i + 1) := by
      have := congrArg List.tail hfs
      rw [List.tail_drop] at this
      exact this
    unfold zipLoop
    simp only [hse, Bool.false_eq_true, if_false]
    obtain ⟨k1, k2⟩ := zipEntry_steps hwf P i zf hi w hb hse _ rfl
    cases hr : (zipEntry A env D F total i zf w).1 with
    | some x =>
      simp only
      exact ⟨k1 (by simp [hr]), by simp⟩
    | none =>
      simp only
      obtain ⟨w', e1, e2, e3, e4⟩ := k2 hr
      rw [e1]
      cases hs : (zipEntry A env D F total i zf w).2.stopErr with
      | false =>
        obtain ⟨c1, c2⟩ := ih (i + 1) (zipNext zf w') hfs' (by show w'.stopErr = false; rw [e2, hs]) (e3 hs)
        refine ⟨c1, fun a b => ?_⟩
        obtain ⟨j, d1, d2, d3⟩ := c2 a b
        exact ⟨j, d1, by omega, d3⟩
      | true =>
        have hstop : ∀ (fs : List ZFile) (j : Nat) (w' : XW K V), w'.stopErr = true → zipLoop A env D F total fs j w' = (none, w') := by
          intro fs j w' h
          cases fs with
          | nil => rfl
          | cons z fs => unfold zipLoop; simp [h]
        have hst : (zipNext zf w').stopErr = true := by show w'.stopErr = true; rw [e2, hs]
        rw [hstop _ _ _ hst]
        exact ⟨e4 hs, fun _ h => by rw [hst] at h; cases h⟩

/-- The whole of `Resume`, given what the preallocation pass establishes. -/
theorem zipResume_steps {F : Nat} (hwf : ZipWF A D F) (P : ZipSteps A D env (zipSum A.files) K V) (ck : Option ECkpt)
    (k : K.St) (u : V.St)
    (hpre : ∀ r, zipPrepare A ck (zipInit A ck k u) = r → P.Bad r.2 ∧
      (r.1 = none → ∃ j : Nat, (ck.getD freshCk).entryIndex = j ∧ P.Beg j r.2) ∧ r.2.stopErr = false) :
    P.Bad (zipResume A env D F K V ck k u).2 ∧
    (∀ res, (zipResume A env D F K V ck k u).1 = .ok res → res = A.files.map zipFileEntry ∧
      (zipResume A env D F K V ck k u).2.stopErr = false ∧
      ∃ j, A.files.length ≤ j ∧ P.Beg j (zipResume A env D F K V ck k u).2) ∧
    ((zipResume A env D F K V ck k u).1 = .error .stop → (zipResume A env D F K V ck k u).2.stopErr = true) := by
  unfold zipResume
  simp only
  have hpre' := hpre _ rfl
  have hpw : ∀ x, (zipPrepare A ck (zipInit A ck k u : XW K V)).1 = some x → x ≠ .stop := by
    have : ∀ (fs : List ZFile) (w : XW K V) x, (zipPrealloc fs w).1 = some x → x ≠ .stop := by
      intro fs
      induction fs with
      | nil => intro w x h; cases h
      | cons zf fs ih =>
        intro w x h
        unfold zipPrealloc at h
        split at h
        · simp only at h
          split at h
          · simp at h; rw [← h]; simp
          · exact ih _ _ h
        · exact ih _ _ h
    intro x
    unfold zipPrepare
    split
    · exact this _ _ _
    · simp
  generalize zipPrepare A ck (zipInit A ck k u) = Q at *
  obtain ⟨pe, pw⟩ := Q
  obtain ⟨h1, h2, h3⟩ := hpre'
  cases pe with
  | some x => exact ⟨h1, by simp, fun h => by simp at h; exact absurd h (hpw x rfl)⟩
  | none =>
    obtain ⟨j, hj, hb⟩ := h2 rfl
    simp only at h1 h3 hb ⊢
    rw [hj]
    simp only [Int.toNat_natCast]
    rw [if_neg (by omega)]
    have hl := zipLoop_steps hwf P (A.files.drop j) j pw rfl h3 hb
    have hne : ∀ (fs : List ZFile) (i : Nat) (w : XW K V) x, (zipLoop A env D F (zipSum A.files) fs i w).1 = some x → x ≠ .stop := by
      intro fs
      induction fs with
      | nil => intro i w x h; cases h
      | cons z fs ih =>
        intro i w x h
        unfold zipLoop at h
        split at h
        · cases h
        · simp only at h
          split at h
          · simp at h; rw [← h]; simp
          · exact ih _ _ _ h
    have hne' := hne (A.files.drop j) j pw
    generalize zipLoop A env D F (zipSum A.files) (A.files.drop j) j pw = R at *
    obtain ⟨re, rw'⟩ := R
    cases re with
    | some x => exact ⟨hl.1, by simp, fun h => by simp at h; exact absurd h (hne' x rfl)⟩
    | none =>
      simp only at hl ⊢
      cases hs : rw'.stopErr with
      | true => exact ⟨hl.1, by simp, fun _ => hs⟩
      | false =>
        refine ⟨hl.1, ?_, by simp⟩
        intro res hr
        simp at hr
        obtain ⟨j', a, _, b⟩ := hl.2 trivial hs
        exact ⟨hr.symm, hs, j', a, b⟩

end
end Savior
