import Verif.TarMore
import Verif.ZipPath
import Verif.Spec.TarPath
/-!
# What is in place after part of a tar extraction
-/

namespace Savior

/-- What each member is to leave behind: a name and a node (or nothing, if its type is not supported). -/
def tarGoal (m : THdr × List Byte) : Option (Str × PNode) := if m.1.typ = .other then none else some (m.1.name, tarNodeOf m)

/-- No later member has this name. -/
def LastOf (ms : Members) (i : Nat) (p : Str) : Prop := ∀ j m n, i < j → ms[j]? = some m → tarGoal m ≠ some (p, n)

/-- Everything before offset `o` of member `i` is in place, as far as it is kept and no later member is going to replace it. -/
structure THolds (ms : Members) (sh : Str → Bool) (node : Str → Option PNode) (i o : Nat) : Prop where
  done : ∀ j m p n, j < i → ms[j]? = some m → tarGoal m = some (p, n) → sh p = true → LastOf ms j p → node p = some n
  part : ∀ m, ms[i]? = some m → m.1.typ = .reg → sh m.1.name = true → LastOf ms i m.1.name → 0 < o →
    ∃ c, node m.1.name = some (.file c) ∧ o ≤ c.length ∧ c.take o = m.2.take o

/-- Not after. -/
def TLe (i' o' i o : Nat) : Prop := i' < i ∨ (i' = i ∧ o' ≤ o)

theorem TLe.refl (i o : Nat) : TLe i o i o := Or.inr ⟨rfl, Nat.le_refl _⟩

theorem TLe.trans {i1 o1 i2 o2 i3 o3 : Nat} (h : TLe i1 o1 i2 o2) (k : TLe i2 o2 i3 o3) : TLe i1 o1 i3 o3 := by
  unfold TLe at *; omega

variable {ms : Members} {sh : Str → Bool} {node node' : Str → Option PNode}

theorem tarGoal_reg {m : THdr × List Byte} (h : m.1.typ = .reg) : tarGoal m = some (m.1.name, .file m.2) := by
  unfold tarGoal tarNodeOf; simp [h]

theorem THolds.nothing (ms : Members) (sh : Str → Bool) (node : Str → Option PNode) : THolds ms sh node 0 0 :=
  ⟨fun _ _ _ _ h => absurd h (Nat.not_lt_zero _), fun _ _ _ _ _ h => absurd h (Nat.lt_irrefl 0)⟩

theorem THolds.zero {i o : Nat} (h : THolds ms sh node i o) : THolds ms sh node i 0 := ⟨h.done, fun _ _ _ _ _ h => absurd h (Nat.lt_irrefl 0)⟩

theorem THolds.mono {i o i' o' : Nat} (h : THolds ms sh node i o) (hck : o' = 0 ∨ ∃ m, ms[i']? = some m ∧ m.1.typ = .reg ∧ o' ≤ m.2.length)
    (hle : TLe i' o' i o) : THolds ms sh node i' o' := by
  refine ⟨fun j m p n hlt => h.done j m p n (by unfold TLe at hle; omega), ?_⟩
  intro m hm hr hs hu hpos
  rcases hck with h0 | ⟨m', hm', hr', hlen⟩
  · omega
  obtain rfl : m = m' := Option.some.inj (hm.symm.trans hm')
  rcases hle with hlt | ⟨heq, ho⟩
  · exact ⟨m.2, h.done i' m _ _ hlt hm (tarGoal_reg hr) hs hu, hlen, rfl⟩
  · subst heq
    obtain ⟨c, h1, h2, h3⟩ := h.part m hm hr hs hu (by omega)
    refine ⟨c, h1, by omega, ?_⟩
    have := congrArg (List.take o') h3
    rwa [List.take_take, List.take_take, Nat.min_eq_left ho] at this

/-- Changing only the path of member `i`, where the part before `o` survives. -/
theorem THolds.frame {i o : Nat} {m : THdr × List Byte} {q : Str} {nq : PNode} (h : THolds ms sh node i o) (hm : ms[i]? = some m) (hg : tarGoal m = some (q, nq))
    (hfr : ∀ m ∈ ms, ∀ p n, tarGoal m = some (p, n) → ∀ n, p ≠ q → node p = some n → node' p = some n)
    (hpart : 0 < o → m.1.typ = .reg → sh q = true → LastOf ms i q → ∃ c, node' q = some (.file c) ∧ o ≤ c.length ∧ c.take o = m.2.take o) :
    THolds ms sh node' i o := by
  refine ⟨?_, ?_⟩
  · intro j m' p n hlt hm' hg' hs hu
    refine hfr m' (List.mem_of_getElem? hm') p n hg' n (fun he => ?_) (h.done j m' p n hlt hm' hg' hs hu)
    subst he
    exact hu i m nq hlt hm hg
  · intro m' hm' hr hs hu hpos
    obtain rfl : m = m' := Option.some.inj (hm.symm.trans hm')
    rw [tarGoal_reg hr] at hg
    simp only [Option.some.injEq, Prod.mk.injEq] at hg
    obtain ⟨rfl, _⟩ := hg
    exact hpart hpos hr hs hu

/-- Member `i` done. -/
theorem THolds.next {i : Nat} {m : THdr × List Byte} (h : THolds ms sh node i 0) (hm : ms[i]? = some m)
    (hfr : ∀ p n, tarGoal m = some (p, n) → ∀ m' ∈ ms, ∀ p' n', tarGoal m' = some (p', n') → ∀ n', p' ≠ p → node p' = some n' → node' p' = some n')
    (hid : tarGoal m = none → node' = node)
    (hn : ∀ p n, tarGoal m = some (p, n) → sh p = true → LastOf ms i p → node' p = some n) : THolds ms sh node' (i + 1) 0 := by
  refine ⟨?_, fun _ _ _ _ _ h => absurd h (Nat.lt_irrefl 0)⟩
  intro j m' p n hlt hm' hg' hs hu
  by_cases heq : j = i
  · subst heq
    obtain rfl : m = m' := Option.some.inj (hm.symm.trans hm')
    exact hn p n hg' hs hu
  · have hold := h.done j m' p n (by omega) hm' hg' hs hu
    cases hg : tarGoal m with
    | none => rw [hid hg]; exact hold
    | some g =>
      obtain ⟨q, nq⟩ := g
      refine hfr q nq hg m' (List.mem_of_getElem? hm') p n hg' n (fun he => ?_) hold
      subst he
      exact hu i m nq (by omega) hm hg

/-- Checkpoints in order, none of them after `(i, o)`. -/
inductive Upto (At : ECkpt → Nat → Nat → Prop) : List ECkpt → Nat → Nat → Prop
  | nil (i o : Nat) : Upto At [] i o
  | le {l i o i' o'} : Upto At l i o → TLe i o i' o' → Upto At l i' o'
  | snoc {l ck i o} : Upto At l i o → At ck i o → Upto At (l ++ [ck]) i o

theorem Upto.choose' {At : ECkpt → Nat → Nat → Prop} {hist : List ECkpt} {i o : Nat} (h : Upto At hist i o) :
    ∀ {a c b}, hist = a ++ c :: b → ∃ i' o', At c i' o' ∧ TLe i' o' i o ∧ Upto At (a ++ [c]) i' o' := by
  induction h with
  | nil => intro a c b h; cases a <;> cases h
  | le _ hle ih =>
    intro a c b h
    obtain ⟨i', o', h1, h2, h3⟩ := ih h
    exact ⟨i', o', h1, h2.trans hle, h3⟩
  | @snoc l ck i o hl hck ih =>
    intro a c b h
    rcases List.eq_nil_or_concat b with rfl | ⟨b', x, rfl⟩
    · have := List.append_inj' h rfl
      obtain ⟨rfl, h2⟩ := this
      simp only [List.cons.injEq, and_true] at h2
      subst h2
      exact ⟨i, o, hck, .refl .., .snoc hl hck⟩
    · rw [List.concat_eq_append, ← List.cons_append, ← List.append_assoc] at h
      obtain ⟨h1, _⟩ := List.append_inj' h rfl
      exact ih h1

theorem Upto.choose {At : ECkpt → Nat → Nat → Prop} {hist before : List ECkpt} {c : ECkpt} {i o : Nat} (h : Upto At hist i o)
    (hc : ChooseCk hist (some c) before) : ∃ i' o', At c i' o' ∧ TLe i' o' i o ∧ Upto At before i' o' := by
  cases hc with
  | pick he => exact h.choose' he

/-- The last member of a name is the one the path ends up as. -/
theorem tHolds_node (h : THolds ms sh node ms.length 0) (p : Str) (n : PNode) (hs : sh p = true) (hn : tarNode ms p = some n) : node p = some n := by
  unfold tarNode at hn
  have gen : ∀ (l : Members) z, (l.filter fun m => m.1.name = p ∧ m.1.typ ≠ .other).getLast? = some z →
      ∃ i, l[i]? = some z ∧ z.1.name = p ∧ z.1.typ ≠ .other ∧ LastOf l i p := by
    intro l z
    induction l with
    | nil => intro h; cases h
    | cons a l ih =>
      intro h
      by_cases ha : a.1.name = p ∧ a.1.typ ≠ .other
      · rw [List.filter_cons_of_pos (by simp [ha])] at h
        cases hr : (l.filter fun m => m.1.name = p ∧ m.1.typ ≠ .other).getLast? with
        | some y =>
          rw [List.getLast?_cons, hr] at h
          simp only [Option.getD_some, Option.some.injEq] at h
          subst h
          obtain ⟨i, h1, h2, h3, h4⟩ := ih hr
          refine ⟨i + 1, by simpa using h1, h2, h3, ?_⟩
          intro j m nn hj hm
          cases j with
          | zero => omega
          | succ j => exact h4 j m nn (by omega) (by simpa using hm)
        | none =>
          rw [List.getLast?_cons, hr] at h
          simp only [Option.getD_none, Option.some.injEq] at h
          subst h
          have hnil : l.filter (fun m => m.1.name = p ∧ m.1.typ ≠ .other) = [] := List.getLast?_eq_none_iff.mp hr
          refine ⟨0, rfl, ha.1, ha.2, ?_⟩
          intro j m nn hj hm hg
          cases j with
          | zero => omega
          | succ j =>
            have hmem : m ∈ l := List.mem_of_getElem? (by simpa using hm)
            unfold tarGoal at hg
            split at hg
            · cases hg
            · rename_i hne
              simp only [Option.some.injEq, Prod.mk.injEq] at hg
              have : m ∈ l.filter (fun m => m.1.name = p ∧ m.1.typ ≠ .other) := List.mem_filter.2 ⟨hmem, by simp [hg.1, hne]⟩
              rw [hnil] at this; cases this
      · rw [List.filter_cons_of_neg (by simpa using ha)] at h
        obtain ⟨i, h1, h2, h3, h4⟩ := ih h
        refine ⟨i + 1, by simpa using h1, h2, h3, ?_⟩
        intro j m nn hj hm
        cases j with
        | zero => omega
        | succ j => exact h4 j m nn (by omega) (by simpa using hm)
  cases hl : (ms.filter fun m => m.1.name = p ∧ m.1.typ ≠ .other).getLast? with
  | none => rw [hl] at hn; cases hn
  | some z =>
    rw [hl] at hn
    simp only [Option.map_some, Option.some.injEq] at hn
    subst hn
    obtain ⟨i, h1, h2, h3, h4⟩ := gen ms z hl
    refine h.done i z p _ (List.getElem?_eq_some_iff.mp h1).1 h1 ?_ hs h4
    unfold tarGoal
    rw [if_neg h3, h2]

section
variable {T : TarFmt} {clean : Bool} {Y : List Byte}

/-- A path along a complete archive goes through its members. -/
theorem tarPath_all {all ms : Members} {st : T.St} {Y' : List Byte} (hall : TarHas T clean Y all) (hp : TarPath T clean T.start Y ms st Y') : ms <+: all := by
  obtain ⟨st1, Z, p, e⟩ := hall
  rcases Nat.lt_trichotomy ms.length all.length with hl | hl | hl
  · obtain ⟨st2, Y2, h, st3, Y3, g1, _⟩ := tarPath_prefix p ms.length hl
    have := (tarPath_det hp g1 (by simp; omega)).1
    rw [this]; exact List.take_prefix _ _
  · rw [(tarPath_det hp p hl).1]; exact List.prefix_refl _
  · obtain ⟨st2, Y2, h, st3, Y3, g1, g2, _⟩ := tarPath_prefix hp all.length hl
    obtain ⟨_, b, c⟩ := tarPath_det p g1 (by simp; omega)
    rw [← b, ← c, e] at g2
    cases g2

theorem tarPath_next {all ms : Members} {m : THdr × List Byte} {st : T.St} {Y' : List Byte} (hall : TarHas T clean Y all)
    (hp : TarPath T clean T.start Y (ms ++ [m]) st Y') : all[ms.length]? = some m := by
  obtain ⟨t, ht⟩ := tarPath_all hall hp
  rw [← ht]; simp

/-- The file the parser stands at is the next member. -/
theorem fileAt_next {all ms : Members} {h : THdr} {z0 : Nat} {st0 : T.St} (hall : TarHas T clean Y all) (hf : FileAt T clean Y ms h z0 st0) :
    z0 + T.rem st0 ≤ Y.length ∧ all[ms.length]? = some (h, (Y.drop z0).take (T.rem st0)) := by
  obtain ⟨hz, hr, st1, Y1, hp, hn⟩ := hf
  have hlen : T.rem st0 ≤ (Y.drop z0).length := by
    rcases Nat.lt_or_ge (Y.drop z0).length (T.rem st0) with hh | hh
    · exact absurd ⟨ms, st1, Y1, hp, Or.inr ⟨h, st0, _, hn, hr, hh⟩⟩ (tarHas_not_broken hall)
    · exact hh
  refine ⟨by simp at hlen; omega, tarPath_next hall (.file hp hn hr hlen)⟩

end
end Savior
