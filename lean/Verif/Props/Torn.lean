import Verif.Props.Gob
/-!
# Checkpoint files that were not written to the end (C92)
-/

namespace Savior
open Gob

/-- A number cut short is noticed. -/
theorem uint_torn (n : Nat) (h : n < 2 ^ 64) {pre : List Byte} (hp : pre <+: uintE n) (hne : pre ≠ uintE n) : uintD pre = none := by
  cases pre with
  | nil => rfl
  | cons b t =>
    unfold uintE at hp hne
    split at hp
    · rename_i hn
      obtain ⟨r, hr⟩ := hp
      simp only [List.cons_append, List.cons.injEq, List.append_eq_nil_iff] at hr
      rw [if_pos hn, hr.1, hr.2.1] at hne
      exact absurd rfl hne
    · rename_i hn
      obtain ⟨h1, h2, h3⟩ := nbytes_spec n h
      rw [if_neg hn] at hne
      have hl : (beBytes (nbytes n) n).length = nbytes n := beBytes_length _ _
      generalize beBytes (nbytes n) n = B at *
      generalize nbytes n = k at *
      have h4 : (UInt8.ofNat (256 - k)).toNat = 256 - k := by rw [UInt8.toNat_ofNat']; omega
      have h5 : 256 - (256 - k) = k := by omega
      obtain ⟨r, hr⟩ := hp
      simp only [List.cons_append, List.cons.injEq] at hr
      obtain ⟨rfl, hr⟩ := hr
      have : t.length < k := by
        rw [← hr, List.length_append] at hl
        cases r with
        | nil => rw [List.append_nil] at hr; rw [hr] at hne; exact absurd rfl hne
        | cons _ _ => simp only [List.length_cons] at hl; omega
      rw [uintD, h4, h5, if_neg (by omega), if_neg (by omega), if_pos this]

/-- **C92.** If a file with an encoded checkpoint is cut short anywhere, decoding it reports an error. -/
theorem C92_torn {α : Type} (c : Coder α) (a : α) (id : Int) (limit : Nat) (hl : limit ≤ 2 ^ 63) (bs : List Byte) (hm : marshal limit c id a = some bs)
    (k : Nat) (hk : k < bs.length) : unmarshal limit c (bs.take k) = none := by
  unfold marshal at hm
  split at hm
  · cases hm
  · rename_i e he
    split at hm
    · cases hm
    · rename_i hlt
      injection hm with hm
      generalize intE id ++ e = body at *
      subst hm
      unfold unmarshal
      by_cases h1 : k < (uintE body.length).length
      · rw [List.take_append_of_le_length (by omega), uint_torn body.length (by omega) (List.take_prefix _ _)
          (fun h => by have := congrArg List.length h; rw [List.length_take] at this; omega)]
      · rw [List.take_append, List.take_of_length_le (by omega), uint_back _ (by omega)]
        simp only [if_neg hlt]
        rw [if_pos (by rw [List.length_take]; simp only [List.length_append] at hk; omega)]

/-- **C92**: what follows an encoded checkpoint in the file (the rest of a longer one it was written over) changes nothing. -/
theorem C92_longer {α : Type} (c : Coder α) (a : α) (id : Int) (limit : Nat) (hl : limit ≤ 2 ^ 63) (bs : List Byte) (hm : marshal limit c id a = some bs)
    (rest : List Byte) : unmarshal limit c (bs ++ rest) = unmarshal limit c bs := by
  unfold marshal at hm
  split at hm
  · cases hm
  · rename_i e he
    split at hm
    · cases hm
    · rename_i hlt
      injection hm with hm
      generalize intE id ++ e = body at *
      subst hm
      unfold unmarshal
      rw [List.append_assoc, uint_back _ (by omega), uint_back _ (by omega)]
      simp only [if_neg hlt, Nat.lt_irrefl, if_false, List.take_length, List.take_left]
      rw [if_neg (by simp)]

/-- A file holding the encoded value `a`: whole, with anything behind it, it is decoded as `a`; cut short, it is refused. -/
def Framed {α : Type} (limit : Nat) (c : Coder α) (a : α) (bs : List Byte) : Prop :=
  (∀ rest, unmarshal limit c (bs ++ rest) = some a) ∧ ∀ k, k < bs.length → unmarshal limit c (bs.take k) = none

theorem framed {α : Type} {c : Coder α} {a : α} (h : Survives c a) (id : Int) (hid : I64 id) (limit : Nat) (hl : limit ≤ 2 ^ 63) (bs : List Byte)
    (hm : marshal limit c id a = some bs) : Framed limit c a bs := by
  obtain ⟨n, hn⟩ := h id hid
  obtain ⟨h1, h2⟩ := hn limit hl
  refine ⟨fun rest => ?_, C92_torn c a id limit hl bs hm⟩
  rw [C92_longer c a id limit hl bs hm rest]
  by_cases hh : n < limit
  · obtain ⟨bs', a1, a2⟩ := h1 hh
    rw [hm] at a1
    injection a1 with a1
    rw [a1, a2]
  · rw [h2 (by omega)] at hm; cases hm

/-- **C92 (source checkpoints).** -/
theorem C92_source (P : Progs) (N : Nat) (ck : Ckpt) (h : CkStorable P N ck) (id : Int) (hid : I64 id) (limit : Nat) (hl : limit ≤ 2 ^ 63) (bs : List Byte)
    (hm : marshal limit (ckC P N) id ck = some bs) : Framed limit (ckC P N) ck bs := framed (C85_source P N ck h) id hid limit hl bs hm

/-- **C92 (extractor checkpoints).** -/
theorem C92_extractor (P : Progs) (N : Nat) (c : ECkpt) (h : ECkStorable P N c) (id : Int) (hid : I64 id) (limit : Nat) (hl : limit ≤ 2 ^ 63) (bs : List Byte)
    (hm : marshal limit (eckC P N) id c = some bs) : Framed limit (eckC P N) c bs := framed (C85_extractor P N c h) id hid limit hl bs hm

/-- The limit of C92: a checkpoint written over another, in place, and not to the end, may be read as a third, which nobody
saved. Here offsets 256 and 900; what is read is 896. -/
theorem C92_in_place : ∃ old new third bs1 bs2 k, marshal (2 ^ 30) (ckC allProgs 1) 65 old = some bs1 ∧ marshal (2 ^ 30) (ckC allProgs 1) 65 new = some bs2 ∧
    bs1.length = bs2.length ∧ unmarshal (2 ^ 30) (ckC allProgs 1) (bs2.take k ++ bs1.drop k) = some third ∧ third ≠ old ∧ third ≠ new :=
  ⟨.plain 256, .plain 900, .plain 896, [7, 255, 130, 1, 254, 2, 0, 0], [7, 255, 130, 1, 254, 7, 8, 0], 6, by decide +kernel, by decide +kernel, rfl, rfl, by simp, by simp⟩

/-- The hypotheses are met: the nested checkpoint of the examples is written in more than 100 bytes. -/
example : ∃ bs, marshal (2 ^ 30) (ckC allProgs 3) 65 nestedCk = some bs ∧ 100 < bs.length ∧ Framed (2 ^ 30) (ckC allProgs 3) nestedCk bs := by
  have : ∃ bs, marshal (2 ^ 30) (ckC allProgs 3) 65 nestedCk = some bs ∧ 100 < bs.length := by
    have : ((marshal (2 ^ 30) (ckC allProgs 3) 65 nestedCk).any fun bs => decide (100 < bs.length)) = true := by decide +kernel
    generalize marshal (2 ^ 30) (ckC allProgs 3) 65 nestedCk = m at *
    cases m with
    | none => cases this
    | some bs => exact ⟨bs, rfl, of_decide_eq_true this⟩
  obtain ⟨bs, h1, h2⟩ := this
  exact ⟨bs, h1, h2, C92_source _ _ _ nestedCk_storable 65 (by decide) (2 ^ 30) (by decide) bs h1⟩

end Savior
