import Verif.DecompLemmas
/-!
# The SaverReader over a lawful source
-/

namespace Savior

section
variable {I : SourceM} {Z : List Byte} {cz : Bool} (L : Lawful I Z cz) (D : Decomp)

/-- Invariant of a `SaverReader` that has handed out `o` bytes, on top of a source state and a remembered source
checkpoint. -/
def SRInv (r : SR D) (src : I.St) (ck : Option Ckpt) (o : Nat) : Prop :=
  o ≤ (D.decode D.start Z cz).1.length ∧ r.woff = o ∧
  (r.want = true → ∃ k oi, ck = some k ∧ L.CkFor k oi ∧ (oi : Int) ≤ r.roff ∧ (L.plain → r.err = none → (oi : Int) < r.roff)) ∧
  L.Live src ∧
  (r.err = none → ∃ ri : Nat, r.roff = ri ∧ L.At src ri ∧ D.fin r.st = false ∧
      r.pend ++ (D.decode r.st (Z.drop ri) cz).1 = (D.decode D.start Z cz).1.drop o ∧
      (D.decode r.st (Z.drop ri) cz).2 = (D.decode D.start Z cz).2) ∧
  (∀ e, r.err = some e →
      (∃ t, r.pend ++ t = (D.decode D.start Z cz).1.drop o) ∧
      e ≠ .panic ∧ e ≠ .diverge ∧ e ≠ .readyToSave ∧
      (e = .eof → r.pend = (D.decode D.start Z cz).1.drop o ∧ (D.decode D.start Z cz).2 = true) ∧
      (e ≠ .eof → L.nice → r.pend = (D.decode D.start Z cz).1.drop o ∧ (D.decode D.start Z cz).2 = false))

/-- The decreasing measure (without the output part). -/
def srRank (r : SR D) (src : I.St) : Nat :=
  (if r.err.isSome then 0 else 2 * L.rank src + 1) + (if r.want then 1 else 0)

theorem stickyErr_none {fa : List Byte × D.St × Bool} {e : Option Err} (h : stickyErr D fa e = none) :
    e = none ∧ fa.2.2 = false ∧ D.fin fa.2.1 = false := by
  unfold stickyErr at h
  by_cases h1 : fa.2.2 = true
  · simp [h1] at h
  · by_cases h2 : D.fin fa.2.1 = true
    · simp [h1, h2] at h
    · simp only [h1, h2] at h
      refine ⟨?_, by simpa using h1, by simpa using h2⟩
      cases e with
      | none => rfl
      | some x =>
        by_cases hx : x = .eof
        · subst hx
          by_cases h3 : D.eofOK fa.2.1 = true <;> simp [h3] at h
        · exfalso
          cases x <;> simp at h hx

variable {L D}

/-- Absorbing one answer keeps the invariant and does not increase the measure. -/
theorem absorb_inv (r : SR D) (src : I.St) (ck : Option Ckpt) (o : Nat)
    (hB : (∀ st, D.ask st ≠ 0) ∨ LawfulByte L)
    (h : SRInv L D r src ck o) (hp : r.pend = []) (he : r.err = none) :
    ∃ bs e src' ck' fired, askInner D I r.st src ck = ((bs, e), src', (ck', fired)) ∧
      SRInv L D (r.absorb bs e fired) src' ck' o ∧
      ((r.absorb bs e fired).err = none → L.rank src' < L.rank src) ∧
      srRank L D (r.absorb bs e fired) src' ≤ srRank L D r src ∧
      (L.Quiet src → fired = false ∧ L.Quiet src') ∧
      (D.ask r.st = 0 → (r.absorb bs e fired).err = none → bs ≠ []) ∧
      (∀ r2 : SR D, r2.st = (r.absorb bs e fired).st → r2.pend = (r.absorb bs e fired).pend →
        r2.roff = (r.absorb bs e fired).roff → r2.woff = (r.absorb bs e fired).woff →
        r2.err = (r.absorb bs e fired).err → r2.want = false → SRInv L D r2 src' ck' o) := by
  obtain ⟨hol, hw, hck, hgood, hn, hs⟩ := h
  obtain ⟨ri, hri, hat, hfin, hdec, hcl⟩ := hn he
  obtain ⟨bs, e, src', ck', fired, h1, h2, h3, h4, h5, hne, h6⟩ := ask_spec L D hB r.st src ri ck hat
  rw [hp, List.nil_append] at hdec
  have hsplit : Z.drop ri = bs ++ Z.drop (ri + bs.length) := by
    conv => lhs; rw [← List.take_append_drop bs.length (Z.drop ri)]
    rw [← h4, List.drop_drop]
  have hda := decode_append D cz (Z.drop (ri + bs.length)) bs r.st
  rw [← hsplit] at hda
  have hmain : (o ≤ (D.decode D.start Z cz).1.length) ∧ L.Live src' ∧
     ((r.absorb bs e fired).err = none → ∃ ri : Nat, (r.absorb bs e fired).roff = ri ∧ L.At src' ri ∧ D.fin (r.absorb bs e fired).st = false ∧
      (r.absorb bs e fired).pend ++ (D.decode (r.absorb bs e fired).st (Z.drop ri) cz).1 = (D.decode D.start Z cz).1.drop o ∧
      (D.decode (r.absorb bs e fired).st (Z.drop ri) cz).2 = (D.decode D.start Z cz).2) ∧
     (∀ e', (r.absorb bs e fired).err = some e' →
      (∃ t, (r.absorb bs e fired).pend ++ t = (D.decode D.start Z cz).1.drop o) ∧
      e' ≠ .panic ∧ e' ≠ .diverge ∧ e' ≠ .readyToSave ∧
      (e' = .eof → (r.absorb bs e fired).pend = (D.decode D.start Z cz).1.drop o ∧ (D.decode D.start Z cz).2 = true) ∧
      (e' ≠ .eof → L.nice → (r.absorb bs e fired).pend = (D.decode D.start Z cz).1.drop o ∧ (D.decode D.start Z cz).2 = false)) := by
    refine ⟨hol, h5, ?_, ?_⟩
    · intro herr
      obtain ⟨hen, hcor, hfin'⟩ := stickyErr_none D herr
      simp only [SR.absorb]
      rw [if_neg (by simp [hcor])] at hda
      subst hen
      rcases h6 with ⟨_, g1, g2⟩ | ⟨g, _⟩ | ⟨_, g, _⟩
      · refine ⟨ri + bs.length, by rw [hri]; rfl, g1, by simpa using hfin', ?_, ?_⟩
        · rw [← hdec, hda]
        · rw [← hcl, hda]
      · cases g
      · cases g
    · intro e' herr
      simp only [SR.absorb, stickyErr] at herr ⊢
      split at herr
      · rename_i hcor
        rw [if_pos hcor] at hda
        simp at herr; subst herr
        refine ⟨⟨[], by rw [← hdec, hda]; simp⟩, by simp, by simp, by simp, by simp, fun _ _ => ?_⟩
        exact ⟨by rw [← hdec, hda], by rw [← hcl, hda]⟩
      · rename_i hcor
        rw [if_neg hcor] at hda
        split at herr
        · rename_i hfin'
          simp at herr; subst herr
          rw [decode_fin D _ _ cz hfin'] at hda
          simp only [List.append_nil] at hda
          refine ⟨⟨[], by rw [← hdec, hda]; simp⟩, by simp, by simp, by simp, fun _ => ?_, by simp⟩
          exact ⟨by rw [← hdec, hda], by rw [← hcl, hda]⟩
        · rename_i hfin'
          have hpre : ∃ t, (D.feedAll r.st bs).1 ++ t = (D.decode D.start Z cz).1.drop o :=
            ⟨_, by rw [← hdec, hda]⟩
          rcases h6 with ⟨g, _⟩ | ⟨g, g1, g2⟩ | ⟨x, g, g1, g2, g3, g4, g5⟩
          · subst g; cases herr
          · subst g
            have hnil : Z.drop (ri + bs.length) = [] := List.drop_eq_nil_of_le (by omega)
            rw [hnil] at hda
            simp only [Decomp.decode, hfin', List.append_nil] at hda
            simp only [] at herr
            split at herr
            · rename_i hok
              simp at herr; subst herr
              refine ⟨hpre, by simp, by simp, by simp, fun _ => ?_, by simp⟩
              exact ⟨by rw [← hdec, hda], by rw [← hcl, hda, hok]; simp [g2]⟩
            · rename_i hok
              simp at herr; subst herr
              refine ⟨hpre, by simp, by simp, by simp, by simp, fun _ _ => ?_⟩
              exact ⟨by rw [← hdec, hda], by rw [← hcl, hda]; simpa using fun _ => hok⟩
          · subst g
            have hx : e' = x := by
              cases x <;> simp at herr g1 <;> first | exact herr.symm | exact absurd rfl g1
            subst hx
            refine ⟨hpre, g2, g3, g4, fun h => absurd h g1, fun _ hn => ?_⟩
            obtain ⟨n1, n2⟩ := g5 hn
            have hnil : Z.drop (ri + bs.length) = [] := List.drop_eq_nil_of_le (by omega)
            rw [hnil] at hda
            simp only [Decomp.decode, hfin', List.append_nil] at hda
            exact ⟨by rw [← hdec, hda], by rw [← hcl, hda]; simp [n1]⟩
  have hrank : (r.absorb bs e fired).err = none → L.rank src' < L.rank src := by
    intro herr
    have hen := (stickyErr_none D herr).1
    rcases h6 with ⟨_, g1, g2⟩ | ⟨g, _⟩ | ⟨x, g, g1, _⟩
    · exact g2
    · rw [hen] at g; cases g
    · rw [hen] at g; cases g
  refine ⟨bs, e, src', ck', fired, h1, ⟨hmain.1, hw, ?_, hmain.2.1, hmain.2.2.1, hmain.2.2.2⟩, hrank, ?_, h3, ?_, ?_⟩
  · intro hwant
    simp only [SR.absorb, Bool.or_eq_true] at hwant ⊢
    rcases h2 with ⟨g1, k, g2, g3⟩ | ⟨g1, g2⟩
    · refine ⟨k, ri, g2, g3, by omega, fun hpl herr => ?_⟩
      have := List.length_pos_iff.mpr (hne (.inr hpl) (stickyErr_none D herr).1)
      omega
    · rcases hwant with hwant | hwant
      · obtain ⟨k, oi, a, b, c, d⟩ := hck hwant
        exact ⟨k, oi, by rw [g2, a], b, by omega, fun hpl _ => by have := d hpl he; omega⟩
      · rw [g1] at hwant; cases hwant
  · have hw1 : (if (r.absorb bs e fired).want then 1 else 0) ≤ 1 := by split <;> omega
    have hw2 : (if (r.absorb bs e fired).want then 1 else 0) ≤ 1 + (if r.want then 1 else 0) := by split <;> omega
    unfold srRank
    rw [he]
    cases herr : (r.absorb bs e fired).err with
    | none =>
      have := hrank herr
      simp
      omega
    | some x =>
      simp
      omega
  · intro hk herr
    exact hne (.inl hk) (stickyErr_none D herr).1
  · intro r2 e1 e2 e3 e4 e5 e6
    refine ⟨hmain.1, by rw [e4]; exact hw, by rw [e6]; simp, hmain.2.1, ?_, ?_⟩
    · rw [e5, e3, e2, e1]; exact hmain.2.2.1
    · rw [e5, e2]; exact hmain.2.2.2

/-- `SaverReader.Read` over a lawful source. -/
theorem srLoop_spec (hB : (∀ st, D.ask st ≠ 0) ∨ LawfulByte L) (n : Nat) (hn : 0 < n) (o : Nat) :
    ∀ (f : Nat) (r : SR D) (src : I.St) (ck : Option Ckpt), SRInv L D r src ck o →
      0 < f → (r.pend = [] → r.err = none → L.rank src + 2 ≤ f) →
    ∃ bs e r' src' ck', srLoop D I f n r src ck = ((bs, e), r', src', ck') ∧
      SRInv L D r' src' ck' (o + bs.length) ∧ bs.length ≤ n ∧
      bs = ((D.decode D.start Z cz).1.drop o).take bs.length ∧
      (L.Quiet src → r.want = false → L.Quiet src' ∧ r'.want = false ∧ e ≠ some .readyToSave) ∧
      ((e = none ∧ bs ≠ [] ∧ srRank L D r' src' ≤ srRank L D r src) ∨
       (e = some .readyToSave ∧ bs = [] ∧ r'.err = none ∧ r'.pend = [] ∧ D.canSave r'.st = true ∧ r'.want = false ∧
          (∃ k oi, ck' = some k ∧ L.CkFor k oi ∧ (oi : Int) ≤ r'.roff ∧ (L.plain → (oi : Int) < r'.roff)) ∧ srRank L D r' src' < srRank L D r src) ∨
       (e = some .eof ∧ o + bs.length = (D.decode D.start Z cz).1.length ∧ (D.decode D.start Z cz).2 = true ∧
          (D.eager = false → bs = [] ∧ r'.err = some .eof ∧ r'.pend = [])) ∨
       (∃ x, e = some x ∧ x ≠ .eof ∧ x ≠ .panic ∧ x ≠ .diverge ∧ x ≠ .readyToSave ∧
          (D.eager = false → bs = [] ∧ r'.err = some x ∧ r'.pend = []) ∧
          (L.nice → (D.decode D.start Z cz).2 = false ∧ o + bs.length = (D.decode D.start Z cz).1.length))) := by
  intro f
  induction f with
  | zero => intro r src ck _ h; omega
  | succ f ih =>
    intro r src ck hinv _ hfuel
    unfold srLoop
    have hinv' := hinv
    obtain ⟨hol, hw, hck, hgood, hnone, hsome⟩ := hinv
    by_cases hp : r.pend = []
    · rw [if_neg (by simp [hp])]
      cases he : r.err with
      | some e =>
        simp only []
        obtain ⟨_, h2, h3, h4, h5, h6⟩ := hsome e he
        refine ⟨[], some e, r, src, ck, rfl, by simpa using hinv', by simp, by simp,
          fun hq hwt => ⟨hq, hwt, by simpa using h4⟩, ?_⟩
        by_cases hx : e = .eof
        · subst hx
          obtain ⟨a, b⟩ := h5 rfl
          have := congrArg List.length a
          rw [hp] at this
          simp at this
          refine Or.inr (Or.inr (Or.inl ⟨rfl, ?_, b, fun _ => ⟨rfl, he, hp⟩⟩))
          simp; omega
        · refine Or.inr (Or.inr (Or.inr ⟨e, rfl, hx, h2, h3, h4, fun _ => ⟨rfl, he, hp⟩, fun hn => ?_⟩))
          obtain ⟨a, b⟩ := h6 hx hn
          have := congrArg List.length a
          rw [hp] at this
          simp at this
          refine ⟨b, ?_⟩
          simp; omega
      | none =>
        simp only []
        by_cases hws : (r.want && D.canSave r.st) = true
        · rw [if_pos hws]
          simp only [Bool.and_eq_true] at hws
          refine ⟨[], _, _, src, ck, rfl, ?_, by simp, by simp, ?_, ?_⟩
          · exact ⟨hol, hw, by simp, hgood, fun _ => hnone he, by simp⟩
          · intro _ hwt; rw [hwt] at hws; cases hws.1
          · refine Or.inr (Or.inl ⟨rfl, rfl, rfl, hp, hws.2, rfl, ?_, ?_⟩)
            · obtain ⟨k, oi, a, b, c, d⟩ := hck hws.1
              exact ⟨k, oi, a, b, c, fun hpl => d hpl he⟩
            simp only [srRank, hws.1, he]
            simp
        · rw [if_neg hws]
          obtain ⟨bs, e, src', ck', fired, h1, h2, h3, h4, h5, _, _⟩ := absorb_inv r src ck o hB hinv' hp he
          simp only [h1]
          have hf := hfuel hp he
          obtain ⟨bs2, e2, r2, src2, ck2, g1, g2, g3, g4, g5, g6⟩ := ih _ src' ck' h2 (by omega)
            (fun _ hh => by have := h3 hh; omega)
          refine ⟨bs2, e2, r2, src2, ck2, g1, g2, g3, g4, ?_, ?_⟩
          · intro hq hwt
            obtain ⟨a, b⟩ := h5 hq
            exact g5 b (by simp [SR.absorb, hwt, a])
          · rcases g6 with ⟨a, b, c⟩ | ⟨a, b, c1, c2, c3, c4, c5, c6⟩ | h | h
            · exact Or.inl ⟨a, b, by omega⟩
            · exact Or.inr (Or.inl ⟨a, b, c1, c2, c3, c4, c5, by omega⟩)
            · exact Or.inr (Or.inr (Or.inl h))
            · exact Or.inr (Or.inr (Or.inr h))
    · rw [if_pos hp]
      have hlen : 0 < r.pend.length := List.length_pos_iff.mpr hp
      -- what is pending is a prefix of the rest of the stream
      have hpre : ∃ t, r.pend ++ t = (D.decode D.start Z cz).1.drop o := by
        cases he : r.err with
        | none =>
          obtain ⟨ri, _, _, _, a, _⟩ := hnone he
          exact ⟨_, a⟩
        | some e => exact (hsome e he).1
      obtain ⟨t, ht⟩ := hpre
      have htl := congrArg List.length ht
      rw [List.length_append, List.length_drop] at htl
      have hdrop : ∀ l : List Byte, r.pend ++ l = (D.decode D.start Z cz).1.drop o →
          r.pend.drop n ++ l = (D.decode D.start Z cz).1.drop (o + (r.pend.take n).length) := by
        intro l hl
        rw [← List.drop_drop, ← hl, List.length_take]
        by_cases h : n ≤ r.pend.length
        · rw [Nat.min_eq_left h, List.drop_append_of_le_length h]
        · rw [Nat.min_eq_right (by omega), List.drop_of_length_le (by omega : r.pend.length ≤ n)]
          simp
      refine ⟨r.pend.take n, _, _, src, ck, rfl, ?_, ?_, ?_, ?_, ?_⟩
      · refine ⟨?_, by simp only [hw]; omega, hck, hgood, ?_, ?_⟩
        · rw [List.length_take]; omega
        · intro he
          obtain ⟨ri, a, b, c, d, e⟩ := hnone he
          exact ⟨ri, a, b, c, hdrop _ d, e⟩
        · intro e he
          obtain ⟨⟨t, a⟩, b1, b2, b3, b4, b5⟩ := hsome e he
          refine ⟨⟨t, hdrop t a⟩, b1, b2, b3, fun h => ?_, fun h hn => ?_⟩
          · refine ⟨?_, (b4 h).2⟩
            have := hdrop [] (by simpa using (b4 h).1)
            simpa using this
          · refine ⟨?_, (b5 h hn).2⟩
            have := hdrop [] (by simpa using (b5 h hn).1)
            simpa using this
      · rw [List.length_take]; omega
      · rw [← ht, List.length_take]
        by_cases h : n ≤ r.pend.length
        · rw [Nat.min_eq_left h, List.take_append_of_le_length h]
        · rw [Nat.min_eq_right (by omega), List.take_of_length_le (by omega : r.pend.length ≤ n)]
          simp
      · intro hq hwt
        refine ⟨hq, hwt, ?_⟩
        split
        · intro hc
          exact (hsome _ hc).2.2.2.1 rfl
        · simp
      · by_cases hee : (D.eager && (r.pend.drop n).isEmpty) = true
        · rw [if_pos hee]
          simp only [Bool.and_eq_true, List.isEmpty_iff] at hee
          have hall : r.pend.take n = r.pend := by
            rw [List.drop_eq_nil_iff] at hee
            exact List.take_of_length_le hee.2
          cases he : r.err with
          | none =>
            refine Or.inl ⟨rfl, ?_, ?_⟩
            · rw [hall]; exact hp
            · simp [srRank, he]
          | some e =>
            obtain ⟨_, b1, b2, b3, b4, b5⟩ := hsome e he
            by_cases hx : e = .eof
            · subst hx
              refine Or.inr (Or.inr (Or.inl ⟨rfl, ?_, (b4 rfl).2, by simp [hee.1]⟩))
              have := congrArg List.length (b4 rfl).1
              rw [List.length_drop] at this
              rw [hall]; omega
            · refine Or.inr (Or.inr (Or.inr ⟨e, rfl, hx, b1, b2, b3, by simp [hee.1], fun hn => ⟨(b5 hx hn).2, ?_⟩⟩))
              have := congrArg List.length (b5 hx hn).1
              rw [List.length_drop] at this
              rw [hall]; omega
        · rw [if_neg hee]
          refine Or.inl ⟨rfl, ?_, ?_⟩
          · intro h
            have := congrArg List.length h
            rw [List.length_take] at this
            simp at this
            rcases this with h | h
            · omega
            · exact hp h
          · simp [srRank]

/-- No block boundary can be reached from `st` without producing output. -/
def NoBoundary (D : Decomp) (st : D.St) : Prop :=
  ∀ bs st', D.feedAll st bs = ([], st', false) → D.canSave st' = false

/-- Where no boundary can be reached silently, `Read` does not return `ReadyToSaveError`. -/
theorem srLoop_noSave (hB : (∀ st, D.ask st ≠ 0) ∨ LawfulByte L) (n : Nat) (o : Nat) :
    ∀ (f : Nat) (r : SR D) (src : I.St) (ck : Option Ckpt), SRInv L D r src ck o →
      (r.pend = [] → r.err = none → NoBoundary D r.st ∨ (r.want = false ∧ D.ask r.st = 0 ∧
        (∀ b st', D.feed r.st b = some (st', []) → NoBoundary D st'))) →
    (srLoop D I f n r src ck).1.2 ≠ some .readyToSave := by
  intro f
  induction f with
  | zero => intro r src ck _ _; simp [srLoop]
  | succ f ih =>
    intro r src ck hinv hnb
    unfold srLoop
    by_cases hp : r.pend = []
    · rw [if_neg (by simp [hp])]
      cases he : r.err with
      | some e =>
        simp only []
        have := (hinv.2.2.2.2.2 e he).2.2.2.1
        simpa using this
      | none =>
        simp only []
        have hsave : (r.want && D.canSave r.st) = false := by
          rcases hnb hp he with h | ⟨h, _⟩
          · rw [h [] r.st rfl]; simp
          · simp [h]
        rw [hsave]
        simp only [Bool.false_eq_true, if_false]
        obtain ⟨bs, e, src', ck', fired, h1, h2, h3, h4, h5, h6, _⟩ := absorb_inv r src ck o hB hinv hp he
        simp only [h1]
        refine ih _ src' ck' h2 ?_
        intro hp' he'
        left
        have hst := stickyErr_none D he'
        have hout : (D.feedAll r.st bs).1 = [] := hp'
        rcases hnb hp he with h | ⟨_, hask, h⟩
        · intro bs2 st2 hfa
          refine h (bs ++ bs2) st2 ?_
          rw [feedAll_append D bs2 bs r.st hst.2.1, hout]
          simp only [SR.absorb] at hfa
          rw [hfa]; rfl
        · have hbs := h6 hask he'
          cases bs with
          | nil => exact absurd rfl hbs
          | cons b bs =>
            obtain ⟨ri, _, _, hfin, _⟩ := hinv.2.2.2.2.1 he
            have hst2 := hst.2.1
            simp only [Decomp.feedAll, hfin] at hst2 hout
            cases hfd : D.feed r.st b with
            | none => simp [hfd] at hst2
            | some p =>
              obtain ⟨st1, out1⟩ := p
              simp only [hfd] at hst2 hout
              simp at hst2 hout
              have hnb1 := h b st1 (by rw [hfd, hout.1])
              intro bs2 st2 hfa
              refine hnb1 (bs ++ bs2) st2 ?_
              have hst3 : (r.absorb (b :: bs) e fired).st = (D.feedAll st1 bs).2.1 := by
                simp [SR.absorb, Decomp.feedAll, hfin, hfd]
              rw [hst3] at hfa
              rw [feedAll_append D bs2 bs st1 hst2, hout.2, hfa]; rfl
    · rw [if_pos hp]
      simp only []
      split
      · intro hc
        exact (hinv.2.2.2.2.2 _ hc).2.2.2.1 rfl
      · simp

/-- Reading the header over a lawful source. -/
theorem hdrLoop_spec (hD : D.Law) (hB : (∀ st, D.ask st ≠ 0) ∨ LawfulByte L) :
    ∀ (f : Nat) (r : SR D) (src : I.St) (ck : Option Ckpt) (fired : Bool), SRInv L D r src ck 0 → r.want = false →
      (D.inHeader r.st = true → r.pend = [] ∧ r.err ≠ some .eof) →
      0 < f → (r.err = none → L.rank src + 2 ≤ f) →
    (∃ r' src' ck' fired', hdrLoop D I f r src ck fired = (.ok r', src', ck', fired') ∧ SRInv L D r' src' ck' 0 ∧
      r'.want = false ∧ (L.Quiet src → L.Quiet src' ∧ fired' = fired)) ∨
    (∃ e src' ck' fired', hdrLoop D I f r src ck fired = (.error e, src', ck', fired') ∧ D.inHeader r.st = true ∧
      e ≠ .panic ∧ e ≠ .diverge ∧ (L.nice → (D.decode D.start Z cz).2 = false ∧ (D.decode D.start Z cz).1 = []) ∧
      (L.Quiet src → L.Quiet src' ∧ fired' = fired)) := by
  intro f
  induction f with
  | zero => intro r src ck fired _ _ _ h; omega
  | succ f ih =>
    intro r src ck fired hinv hwant hhdr _ hfuel
    unfold hdrLoop
    by_cases hh : D.inHeader r.st = false
    · rw [if_pos hh]
      exact Or.inl ⟨r, src, ck, fired, rfl, hinv, hwant, fun hq => ⟨hq, rfl⟩⟩
    · rw [if_neg hh]
      have hh' : D.inHeader r.st = true := by simpa using hh
      obtain ⟨hp, hne⟩ := hhdr hh'
      cases he : r.err with
      | some e =>
        right
        obtain ⟨_, b1, b2, b3, b4, b5⟩ := hinv.2.2.2.2.2 e he
        have hx : e ≠ .eof := by intro h; subst h; exact hne he
        refine ⟨e, src, ck, fired, rfl, hh', b1, b2, fun hn => ?_, fun hq => ⟨hq, rfl⟩⟩
        have := b5 hx hn
        rw [hp] at this
        exact ⟨this.2, by simpa using this.1.symm⟩
      | none =>
        simp only []
        obtain ⟨bs, e, src', ck', fd, h1, h2, h3, h4, h5, h6, h7⟩ := absorb_inv r src ck 0 hB hinv hp he
        simp only [h1]
        have hinv2 : SRInv L D (r.absorb bs e false) src' ck' 0 :=
          h7 _ rfl rfl rfl rfl rfl (by simp [SR.absorb, hwant])
        have hf := hfuel he
        have hhdr2 : D.inHeader (r.absorb bs e false).st = true →
            (r.absorb bs e false).pend = [] ∧ (r.absorb bs e false).err ≠ some .eof := by
          intro hh2
          have hh3 : D.inHeader (D.feedAll r.st bs).2.1 = true := hh2
          refine ⟨(feedAll_header hD bs r.st hh3).2, ?_⟩
          have hl := hD.header_fin _ hh3
          intro hc
          simp only [SR.absorb, stickyErr, hl.1, hl.2] at hc
          split at hc
          · cases hc
          · cases e with
            | none => simp at hc
            | some x => cases x <;> simp at hc
        have herr2 : (r.absorb bs e false).err = (r.absorb bs e fd).err := rfl
        rcases ih (r.absorb bs e false) src' ck' (fired || fd) hinv2 (by simp [SR.absorb, hwant]) hhdr2 (by omega)
          (fun hh => by have := h3 (herr2 ▸ hh); omega) with ⟨r', s2, c2, f2, g1, g2, g3, g4⟩ |
            ⟨e2, s2, c2, f2, g1, _, g2, g3, g4, g5⟩
        · refine Or.inl ⟨r', s2, c2, f2, g1, g2, g3, fun hq => ?_⟩
          obtain ⟨a, b⟩ := h5 hq
          obtain ⟨c, d⟩ := g4 b
          exact ⟨c, by rw [d, a]; simp⟩
        · refine Or.inr ⟨e2, s2, c2, f2, g1, hh', g2, g3, g4, fun hq => ?_⟩
          obtain ⟨a, b⟩ := h5 hq
          obtain ⟨c, d⟩ := g5 b
          exact ⟨c, by rw [d, a]; simp⟩

/-- The invariant of a fresh reader. -/
theorem srInv_start (hD : D.Law) (src : I.St) (ck : Option Ckpt) (h : L.At src 0) :
    SRInv L D (SR.mk' D.start 0 0) src ck 0 := by
  refine ⟨Nat.zero_le _, rfl, by simp [SR.mk'], L.at_live h, fun _ => ⟨0, rfl, h, hD.start_fin, ?_, ?_⟩, by simp [SR.mk']⟩
  · simp [SR.mk']
  · simp [SR.mk']

end

end Savior
