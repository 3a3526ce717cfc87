import Verif.Zip
import Verif.SeekLemmas
import Verif.WrapLemmas
import Verif.DiscardLemmas
/-!
# Rules for reasoning about the zip extractor
-/

namespace Savior
open Seek (Geo GoodS AtS)

section
variable {K : SinkM} {V : SaveCons} {S : SourceM} {Y : List Byte} {clean : Bool}

/-- Invariant rule for `copier.Do` as the zip extractor uses it, over a lawful source. `Inv o w` must hold at the start
with the cursor at `o0` and no save pending, and be kept by saves (strictly after `o0`), writes of the right bytes,
`ShouldSave` and progress events; `Bad` is what failing writes establish. -/
theorem zipCopy_rule (L : Lawful S Y clean) (total : Int) (o0 : Nat) (Inv : Nat → XW K V → Prop) (Bad : XW K V → Prop)
    (hsave : ∀ o w c, Inv o w → o0 < o → L.CkFor c o → w.stop = false → (∃ n u, (V.shouldSave n u).1 = true) →
      Inv o (zipOnSave total c w).1)
    (hwrite : ∀ o w bs, Inv o w → bs = (Y.drop o).take bs.length → o + bs.length ≤ Y.length →
      ((w.write bs).1.2 = none → Inv (o + bs.length) (w.write bs).2) ∧ ((w.write bs).1.2 ≠ none → Bad (w.write bs).2))
    (hshould : ∀ o w n, Inv o w → Inv o { w with cons := (V.shouldSave n w.cons).2 })
    (hemit : ∀ o w, Inv o w → Inv o (w.say (.progress (zipProgress total w)))) :
    ∀ (fuel counter : Nat) (s : S.St) (w : XW K V) (o : Nat), L.At s o → Inv o w → (o0 < o ∨ (o = o0 ∧ L.Quiet s)) →
    ((¬ ∃ n u, (V.shouldSave n u).1 = true) → L.Quiet s) →
    ∃ r s' w' ev, copyLoop (zipIO S total) fuel counter (s, w) = (r, (s', w'), ev) ∧
      ((∃ o', o ≤ o' ∧ o' ≤ Y.length ∧ Inv o' w' ∧ (r = none → w'.stop = true ∨ (o' = Y.length ∧ clean = true))) ∨
       (Bad w' ∧ r ≠ none)) ∧
      ((∀ o w c, Inv o w → (zipOnSave total c w).2 = none) → L.nice → clean = true → L.rank s < fuel → r ≠ none → Bad w') := by
  intro fuel
  induction fuel with
  | zero =>
    intro counter s w o hat hinv _ _
    exact ⟨_, s, w, _, rfl, Or.inl ⟨o, Nat.le_refl _, L.at_le hat, hinv, by simp⟩, fun _ _ _ h => by omega⟩
  | succ fuel ih =>
    intro counter s w o hat hinv hph hnev
    unfold copyLoop
    by_cases hst : w.stop = true
    · have : (zipIO (K := K) (V := V) S total).stopped (s, w) = true := hst
      simp only [this, if_true]
      exact ⟨_, s, w, _, rfl, Or.inl ⟨o, Nat.le_refl _, L.at_le hat, hinv, fun _ => Or.inl hst⟩, fun _ _ _ _ h => absurd rfl h⟩
    · have hst' : w.stop = false := by simpa using hst
      have : (zipIO (K := K) (V := V) S total).stopped (s, w) = false := hst'
      simp only [this, Bool.false_eq_true, if_false]
      have hrd : (zipIO (K := K) (V := V) S total).read (s, w) =
          ((S.read (zipOnSave total) 32768 s w).1, (S.read (zipOnSave total) 32768 s w).2) := rfl
      obtain ⟨bs, e, s1, em, h1, h2, h3, h4, h5, h6, h7⟩ := L.read_spec (zipOnSave total) 32768 w hat (by omega)
      have hq1 := L.quiet_read (zipOnSave (K := K) (V := V) total) 32768 w hat (by omega)
      rw [h1] at hrd hq1
      simp only at hrd hq1
      rw [hrd]
      simp only
      have hinv1 : Inv o (deliver (zipOnSave total) em w) := by
        cases em with
        | none => exact hinv
        | some c =>
          rcases hph with hlt | ⟨heq, hq⟩
          · refine hsave o w c hinv hlt (h2 c rfl) hst' ?_
            by_cases hex : ∃ n u, (V.shouldSave n u).1 = true
            · exact hex
            · have := (h3 (hnev hex)).1; cases this
          · have := (h3 hq).1; cases this
      have hol : o + bs.length ≤ Y.length := by
        have := congrArg List.length h5
        have := L.at_le hat
        simp only [List.length_take, List.length_drop] at *
        omega
      have hw := hwrite o _ bs hinv1 h5 hol
      generalize hw1 : deliver (zipOnSave total) em w = w1 at *
      have hwr : (zipIO (K := K) (V := V) S total).write bs (s1, w1) = ((w1.write bs).1, (s1, (w1.write bs).2)) := rfl
      rw [hwr]
      simp only
      generalize w1.write bs = Q at *
      obtain ⟨⟨m, we⟩, w2⟩ := Q
      simp only at hw ⊢
      cases we with
      | some x => exact ⟨_, _, _, _, rfl, Or.inr ⟨hw.2 (by simp), by simp⟩, fun _ _ _ _ _ => hw.2 (by simp)⟩
      | none =>
        have hinv2 := hw.1 rfl
        simp only
        have hw3 : ∃ w3, (if decide (progressThreshold < counter + m) = true then
            (zipIO (K := K) (V := V) S total).emit (s1, w2) else (s1, w2)) = (s1, w3) ∧ Inv (o + bs.length) w3 := by
          split
          · exact ⟨_, rfl, hemit _ _ hinv2⟩
          · exact ⟨_, rfl, hinv2⟩
        obtain ⟨w3, e3, hinv3⟩ := hw3
        rw [e3]
        cases e with
        | some x =>
          simp only
          refine ⟨_, _, _, _, rfl, Or.inl ⟨o + bs.length, by omega, hol, hinv3, ?_⟩, ?_⟩
          rotate_left
          · intro hcb hnice hclean _ hr
            exfalso
            rcases h7 with ⟨h, _⟩ | ⟨h, _⟩ | ⟨ck, y, h8, h9, h10, _⟩ | ⟨y, h8, h9, h10, h11, h12, h13⟩
            · cases h
            · simp at h; subst h; simp at hr
            · rw [hcb o w ck hinv] at h9; cases h9
            · have := (h13 hnice).1; rw [hclean] at this; cases this
          intro hr
          right
          by_cases hx : x = .eof
          · subst hx
            rcases h7 with ⟨h, _⟩ | ⟨_, _, h8, h9, _⟩ | ⟨ck, y, h8, h9, h10, _⟩ | ⟨y, h8, h9, _⟩
            · cases h
            · exact ⟨h8, h9⟩
            · -- the consumer's error is stack-annotated, never EOF itself
              exfalso
              have : (zipOnSave total ck w).2 ≠ some .eof := by
                unfold zipOnSave
                simp only
                split
                · simp
                · split <;> simp
              rw [h9, ← h10] at this
              exact this rfl
            · simp at h8; exact absurd h8.symm h9
          · simp [hx] at hr
        | none =>
          simp only
          have hat' : L.At s1 (o + bs.length) := by
            rcases h7 with ⟨_, h, _⟩ | ⟨h, _⟩ | ⟨_, _, _, _, h, _⟩ | ⟨_, h, _⟩
            · exact h
            all_goals cases h
          have hsh : (zipIO (K := K) (V := V) S total).shouldSave bs.length (s1, w3) =
              ((V.shouldSave bs.length w3.cons).1, (s1, { w3 with cons := (V.shouldSave bs.length w3.cons).2 })) := rfl
          rw [hsh]
          simp only
          have hinv4 := hshould (o + bs.length) w3 bs.length hinv3
          have hlt : o0 < o + bs.length := by
            rcases hph with hlt | ⟨heq, hq⟩
            · omega
            · have : bs ≠ [] := hq1 hq rfl
              have := List.length_pos_iff.mpr this
              omega
          have hrk : L.rank s1 < L.rank s := by
            rcases h7 with ⟨_, _, h⟩ | ⟨h, _⟩ | ⟨_, _, _, _, h, _⟩ | ⟨_, h, _⟩
            · exact h
            all_goals cases h
          have hfin : ∀ s2, L.At s2 (o + bs.length) → L.rank s2 = L.rank s1 → ((¬ ∃ n u, (V.shouldSave n u).1 = true) → L.Quiet s2) → ∀ ev0, ∃ r s' w' ev,
              ((fun q : Option Err × (S.St × XW K V) × List CopyEv => (q.1, q.2.1, ev0 ++ q.2.2))
                (copyLoop (zipIO S total) fuel (if decide (progressThreshold < counter + m) = true then 0 else counter + m)
                  (s2, { w3 with cons := (V.shouldSave bs.length w3.cons).2 }))) = (r, (s', w'), ev) ∧
              ((∃ o', o ≤ o' ∧ o' ≤ Y.length ∧ Inv o' w' ∧ (r = none → w'.stop = true ∨ (o' = Y.length ∧ clean = true))) ∨
              (Bad w' ∧ r ≠ none)) ∧
              ((∀ o w c, Inv o w → (zipOnSave total c w).2 = none) → L.nice → clean = true → L.rank s < fuel + 1 → r ≠ none → Bad w') := by
            intro s2 hs2 hrk2 hq2 ev0
            obtain ⟨r, s', w', ev, g1, g2, g3⟩ := ih (if decide (progressThreshold < counter + m) = true then 0 else counter + m) s2 _ _ hs2 hinv4 (Or.inl hlt) hq2
            refine ⟨r, s', w', ev0 ++ ev, by rw [g1], ?_, fun a b c d => g3 a b c (by omega)⟩
            rcases g2 with ⟨o', a, b⟩ | h
            · exact Or.inl ⟨o', by omega, b⟩
            · exact Or.inr h
          cases hsv : (V.shouldSave (bs.length : Int) w3.cons).1 with
          | true => exact hfin _ (L.at_wantSave hat') (L.rank_wantSave s1) (fun h => absurd ⟨_, _, hsv⟩ h) _
          | false => exact hfin _ hat' rfl (fun h => (h3 (hnev h)).2) _

/-- Rule for extracting one stored or deflated file. `oc` is where the source's cursor stands when copying starts. -/
theorem zipRunFile_rule (L : Lawful S Y clean) (total : Int) (F : Nat) (hF : L.rankMax < F) (src : S.St) (w : XW K V)
    (e : Entry) (wo : Int) (o0 : Nat) (Inv : Nat → XW K V → Prop) (Bad : XW K V → Prop)
    (hgood : L.Good src) (hquiet : L.Quiet src) (hent : w.ck.entry = some e) (hwo : e.woff = wo)
    (hst : (w.ck.srcCk = none ∧ o0 = 0) ∨ (∃ c, w.ck.srcCk = some c ∧ L.CkFor c o0))
    (hopen : ∀ oc : Nat, (wo = o0 ∨ wo = 0 → oc = o0 ∨ oc = 0) → (wo = o0 → oc = o0) → ((o0 : Int) ≤ wo → (oc : Int) = wo) → wo ≤ oc → oc ≤ Y.length → (zipOpen w).1 = none → Inv oc { (zipOpen w).2 with stop := false })
    (hsave : ∀ oc : Nat, (wo = o0 → oc = o0) → (L.exact → o0 ≤ oc) → ∀ o w c, Inv o w → oc < o → L.CkFor c o → w.stop = false →
      (∃ n u, (V.shouldSave n u).1 = true) → Inv o (zipOnSave total c w).1)
    (hwrite : ∀ o w bs, Inv o w → bs = (Y.drop o).take bs.length → o + bs.length ≤ Y.length →
      ((w.write bs).1.2 = none → Inv (o + bs.length) (w.write bs).2) ∧ ((w.write bs).1.2 ≠ none → Bad (w.write bs).2))
    (hshould : ∀ o w n, Inv o w → Inv o { w with cons := (V.shouldSave n w.cons).2 })
    (hemit : ∀ o w, Inv o w → Inv o (w.say (.progress (zipProgress total w)))) :
    ((zipRunFile S F total src w).1 ≠ none ∧ (zipRunFile S F total src w).2 = w ∨
     (zipRunFile S F total src w).1 ≠ none ∧ (zipOpen w).1 ≠ none ∧ (zipRunFile S F total src w).2 = (zipOpen w).2 ∨
     (∃ o', o' ≤ Y.length ∧ Inv o' (zipRunFile S F total src w).2 ∧
       ((zipRunFile S F total src w).1 = none → (zipRunFile S F total src w).2.stop = true ∨ (o' = Y.length ∧ clean = true))) ∨
     ((zipRunFile S F total src w).1 ≠ none ∧ Bad (zipRunFile S F total src w).2)) ∧
    ((∀ o w c, Inv o w → (zipOnSave total c w).2 = none) → L.nice → clean = true → L.exact → wo ≤ o0 → (zipOpen w).1 = none →
      (zipRunFile S F total src w).1 ≠ none → Bad (zipRunFile S F total src w).2) := by
  have hres : (∃ (oc : Nat) (s' : S.St), S.resume w.ck.srcCk src = (.ok (oc : Int), s') ∧ (oc = o0 ∨ oc = 0) ∧ (L.exact → oc = o0) ∧
      L.At s' oc ∧ L.Quiet s') ∨ (∃ e s', S.resume w.ck.srcCk src = (.error e, s') ∧ (L.nice → clean = false ∧ Y = [])) := by
    rcases hst with ⟨h1, h2⟩ | ⟨c, h1, h2⟩
    · rw [h1]
      rcases L.resume_nil hgood with ⟨s', a, b, c⟩ | ⟨e, s', a, b, _⟩
      · exact Or.inl ⟨0, s', a, Or.inr rfl, fun _ => h2.symm, b, c hquiet⟩
      · exact Or.inr ⟨e, s', a, b⟩
    · rw [h1]
      rcases L.resume_ck hgood h2 with ⟨o', s', a, b, c, d, f⟩ | ⟨e, s', a, b, _⟩
      · exact Or.inl ⟨o', s', a, b, c, d, f hquiet⟩
      · exact Or.inr ⟨e, s', a, b⟩
  unfold zipRunFile
  rcases hres with ⟨oc, s', h1, h2, hex, h3, h4⟩ | ⟨x, s', h1, hx⟩
  · rw [h1]
    simp only [hent, hwo]
    -- aligning
    have hdis : (∃ (r : Err) (s2 : S.St) (u : Unit), (if (oc : Int) < wo then discard S (fun _ c => (c, none)) F (wo - oc) s' () else (none, s', ())) =
          (some r, s2, u) ∧ (L.exact → ¬ wo ≤ o0)) ∨
        (∃ (s2 : S.St) (u : Unit) (oc' : Nat), (if (oc : Int) < wo then discard S (fun _ c => (c, none)) F (wo - oc) s' () else (none, s', ())) =
          (none, s2, u) ∧ L.At s2 oc' ∧ L.Quiet s2 ∧ (wo = o0 ∨ wo = 0 → oc' = o0 ∨ oc' = 0) ∧ (wo = o0 → oc' = o0) ∧ (L.exact → o0 ≤ oc') ∧ wo ≤ oc' ∧ ((o0 : Int) ≤ wo → (oc' : Int) = wo)) := by
      by_cases hlt : (oc : Int) < wo
      · rw [if_pos hlt]
        have hne : L.exact → ¬ wo ≤ o0 := by
          intro h1 h2; have := hex h1; omega
        obtain ⟨r, s2, c', g1, _, _, g2, g3⟩ := discard_spec L (C := Unit) (fun _ c => (c, none)) (fun _ => True) (fun _ _ _ => trivial)
          F (wo - oc).toNat s' oc () h3 (by have := L.rank_le h3; omega) trivial
        rw [show ((wo - oc).toNat : Int) = wo - oc from by omega] at g1
        rw [g1]
        rcases g3 with ⟨a, b⟩ | ⟨e, k, a, _⟩ | ⟨e, ck, c1, a, b⟩ | ⟨e, a, _⟩
        · subst a
          rw [show oc + (wo - oc).toNat = wo.toNat from by omega] at b
          refine Or.inr ⟨s2, c', wo.toNat, rfl, b, (g2 h4).1, by omega, by omega, ?_, by omega, by omega⟩
          intro hexact
          have := hex hexact
          omega
        · subst a; exact Or.inl ⟨_, s2, c', rfl, hne⟩
        · simp at b
        · subst a; exact Or.inl ⟨_, s2, c', rfl, hne⟩
      · rw [if_neg hlt]
        refine Or.inr ⟨s', (), oc, rfl, h3, h4, fun _ => h2, ?_, fun h => by rw [hex h]; exact Nat.le_refl _, by omega, by omega⟩
        intro h; omega
    rcases hdis with ⟨r, s2, u, g1, g2⟩ | ⟨s2, u, oc', g1, g2, g3, g4, g5, g6, g7, g8⟩
    · rw [g1]
      simp only
      exact ⟨Or.inl ⟨by simp, trivial⟩, fun _ _ _ a b => absurd b (g2 a)⟩
    · rw [g1]
      simp only
      generalize hz : zipOpen w = G at *
      obtain ⟨ge, gw⟩ := G
      simp only at hopen ⊢
      cases ge with
      | some x => exact ⟨Or.inr (Or.inl ⟨by simp, by simp, rfl⟩), by simp⟩
      | none =>
        simp only
        have hi := hopen oc' g4 g5 g8 g7 (L.at_le g2) rfl
        have hcl : (zipIO (K := K) (V := V) S total).clearStop (S.setSSC true s2, gw) = (S.setSSC true s2, { gw with stop := false }) := rfl
        unfold copyDo
        rw [hcl]
        obtain ⟨r, s3, w3, ev, k1, k2, k3⟩ := zipCopy_rule L total oc' Inv Bad (hsave oc' g5 g6) hwrite hshould hemit F 0 (S.setSSC true s2)
          { gw with stop := false } oc' (L.at_setSSC true g2) hi (Or.inr ⟨rfl, L.quiet_setSSC true g3⟩) (fun _ => L.quiet_setSSC true g3)
        rw [k1]
        simp only
        refine ⟨?_, ?_⟩
        · rcases k2 with ⟨o', a, b, c, d⟩ | ⟨a, b⟩
          · exact Or.inr (Or.inr (Or.inl ⟨o', b, c, fun h => d (by simpa using h)⟩))
          · exact Or.inr (Or.inr (Or.inr ⟨by simpa using b, a⟩))
        · intro a b c _ _ _ hr
          refine k3 a b c ?_ (by simpa using hr)
          rw [L.rank_setSSC]
          have := L.rank_le g2
          omega
  · rw [h1]
    simp only
    refine ⟨Or.inl ⟨by simp, trivial⟩, ?_⟩
    intro _ b c hexact hwoo _ _
    have := (hx b).1
    rw [c] at this; cases this

end
end Savior
