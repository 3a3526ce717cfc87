import Verif.GzipEnc
import Verif.Ustar
/-!
# More about the concrete formats

Facts that pin the formats of `Inflate.lean`, `Gzip.lean` and `Ustar.lean` to RFC 1951, RFC 1952 and POSIX where nothing else does. No theorem
about /repo rests on them.
-/

namespace Savior

/-! ## DEFLATE -/

/-- Each of the ranges of values begins where the one before ends. -/
def Tiles : List (Nat × Nat) → Nat → Nat → Prop
  | [], a, z => a = z
  | (b, x) :: t, a, z => b = a ∧ Tiles t (a + 2 ^ x) z

instance decTiles : ∀ l a z, Decidable (Tiles l a z)
  | [], a, z => inferInstanceAs (Decidable (a = z))
  | (b, x) :: t, a, z =>
    have := decTiles t (a + 2 ^ x) z
    inferInstanceAs (Decidable (b = a ∧ Tiles t (a + 2 ^ x) z))

/-- Every length from 3 to 258 has a symbol; the last one has a symbol of its own. -/
theorem lenTable_tiles : Tiles (lenTable.take 28) 3 259 ∧ lenTable.drop 28 = [(258, 0)] := by decide +kernel

/-- Every distance from 1 to 32768 has exactly one symbol. -/
theorem distTable_tiles : Tiles distTable 1 32769 := by decide +kernel

/-- Copying from before the beginning of the output is refused, and nothing else. -/
theorem distExtra_refused (w : IWork) (v len base : Nat) : w.number v (.distExtra len base) = none ↔ w.win.length < base + v := by
  unfold IWork.number
  dsimp only
  split <;> simp [*]

/-! ## gzip headers -/

/-- The first ten bytes: magic, method, flags, time, extra flags, system. -/
def gzFixed (flg a b c d e f : Byte) : List Byte := [31, 139, 8, flg, a, b, c, d, e, f]

/-- An extra field, its length low byte first. -/
def gzExtraField (x : List Byte) : List Byte := UInt8.ofNat (x.length % 256) :: UInt8.ofNat (x.length / 256) :: x

/-- The header checksum: two bytes of the CRC-32 of what precedes, low byte first. -/
def gzCheck (l : List Byte) : List Byte := [UInt8.ofNat (crc32 l % 256), UInt8.ofNat (crc32 l / 256 % 256)]

theorem gzExtra_field (x r : List Byte) (hx : x.length < 65536) : gzExtra (gzExtraField x ++ r) = .ok r := by
  have h1 : (UInt8.ofNat (x.length % 256)).toNat = x.length % 256 := by rw [UInt8.toNat_ofNat']; omega
  have h2 : (UInt8.ofNat (x.length / 256)).toNat = x.length / 256 := by rw [UInt8.toNat_ofNat']; omega
  have h3 : x.length % 256 + 256 * (x.length / 256) = x.length := by omega
  simp only [gzExtraField, List.cons_append, gzExtra, h1, h2, h3]
  rw [if_neg (by rw [List.length_append]; omega), List.drop_left]

theorem gzText_nul (t r : List Byte) (h : ∀ b ∈ t, b ≠ 0) : gzText (t ++ 0 :: r) = .ok r := by
  unfold gzText
  have : (t ++ 0 :: r).dropWhile (· ≠ 0) = 0 :: r := by
    induction t with
    | nil => rfl
    | cons b t ih =>
      have hb := h b (by simp)
      rw [List.cons_append, List.dropWhile_cons_of_pos (by simpa using hb)]
      exact ih fun x hx => h x (by simp [hx])
  rw [this]

theorem gzSum_check (l r : List Byte) (s : Byte × Byte) : gzSum (l ++ [s.1, s.2] ++ r) ([s.1, s.2] ++ r) = if [s.1, s.2] = gzCheck l then .ok r else .bad := by
  obtain ⟨a, b⟩ := s
  have hl : (l ++ [a, b] ++ r).length - ([a, b] ++ r).length = l.length := by simp only [List.length_append]; omega
  have ht : (l ++ [a, b] ++ r).take l.length = l := by rw [List.append_assoc, List.take_left]
  have key : crc32 l % 65536 = a.toNat + 256 * b.toNat ↔ [a, b] = gzCheck l := by
    have ha := a.toNat_lt
    have hb := b.toNat_lt
    unfold gzCheck
    generalize crc32 l = c
    constructor
    · intro h
      have h1 : a = UInt8.ofNat (c % 256) := by
        apply UInt8.toNat_inj.mp
        rw [UInt8.toNat_ofNat']
        omega
      have h2 : b = UInt8.ofNat (c / 256 % 256) := by
        apply UInt8.toNat_inj.mp
        rw [UInt8.toNat_ofNat']
        omega
      rw [h1, h2]
    · intro h
      injection h with h1 h2
      injection h2 with h2 _
      rw [h1, h2, UInt8.toNat_ofNat', UInt8.toNat_ofNat']
      omega
  have e : gzSum (l ++ [a, b] ++ r) (a :: b :: r) =
      if crc32 ((l ++ [a, b] ++ r).take ((l ++ [a, b] ++ r).length - ([a, b] ++ r).length)) % 65536 = a.toNat + 256 * b.toNat then .ok r else .bad := rfl
  refine e.trans ?_
  rw [hl, ht]
  by_cases h : [a, b] = gzCheck l
  · rw [if_pos h, if_pos (key.mpr h)]
  · rw [if_neg h, if_neg (mt key.mp h)]

/-- **A header with all optional parts, in their order, is read to its end; with another checksum it is refused.** -/
theorem gzHeader_full (a b c d e f : Byte) (x name comment : List Byte) (s : Byte × Byte) (r : List Byte) (hx : x.length < 65536)
    (hn : ∀ b ∈ name, b ≠ 0) (hc : ∀ b ∈ comment, b ≠ 0) :
    gzHeader (gzFixed 30 a b c d e f ++ gzExtraField x ++ (name ++ [0]) ++ (comment ++ [0]) ++ [s.1, s.2] ++ r) =
      if [s.1, s.2] = gzCheck (gzFixed 30 a b c d e f ++ gzExtraField x ++ (name ++ [0]) ++ (comment ++ [0])) then .ok r else .bad := by
  obtain ⟨l, hl⟩ : ∃ l, l = gzFixed 30 a b c d e f ++ gzExtraField x ++ (name ++ [0]) ++ (comment ++ [0]) := ⟨_, rfl⟩
  rw [← hl]
  have e1 : l ++ [s.1, s.2] ++ r = gzFixed 30 a b c d e f ++ (gzExtraField x ++ (name ++ 0 :: (comment ++ 0 :: ([s.1, s.2] ++ r)))) := by
    rw [hl]; simp only [List.append_assoc, List.cons_append, List.nil_append]
  unfold gzHeader
  have e2 : gzOpt (l ++ [s.1, s.2] ++ r) 30 ((l ++ [s.1, s.2] ++ r).drop 10) = if [s.1, s.2] = gzCheck l then .ok r else .bad := by
    rw [← gzSum_check l r s]
    unfold gzOpt
    have e3 : (l ++ [s.1, s.2] ++ r).drop 10 = gzExtraField x ++ (name ++ 0 :: (comment ++ 0 :: ([s.1, s.2] ++ r))) := by
      rw [e1]; rfl
    rw [e3, if_pos (by decide), gzExtra_field _ _ hx]
    simp only [GzP.andThen]
    rw [if_pos (by decide), gzText_nul _ _ hn]
    simp only
    rw [if_pos (by decide), gzText_nul _ _ hc]
    simp only
    rw [if_pos (by decide)]
  rw [← e2]
  generalize l ++ [s.1, s.2] ++ r = all at *
  subst e1
  rw [if_neg (by simp only [gzFixed, List.length_append, List.length_cons]; omega)]
  rfl

/-- A header without optional parts. -/
theorem gzHeader_bare (a b c d e f : Byte) (r : List Byte) : gzHeader (gzFixed 0 a b c d e f ++ r) = .ok r := by
  unfold gzHeader
  rw [if_neg (by simp only [gzFixed, List.length_append, List.length_cons]; omega)]
  rfl

/-- Each optional part by itself. -/
theorem gzHeader_extra (a b c d e f : Byte) (x r : List Byte) (hx : x.length < 65536) : gzHeader (gzFixed 4 a b c d e f ++ (gzExtraField x ++ r)) = .ok r := by
  unfold gzHeader
  rw [if_neg (by simp only [gzFixed, List.length_append, List.length_cons]; omega)]
  show gzOpt _ 4 (gzExtraField x ++ r) = _
  unfold gzOpt
  rw [if_pos (by decide), gzExtra_field _ _ hx]
  rfl

theorem gzHeader_comment (a b c d e f : Byte) (t r : List Byte) (ht : ∀ b ∈ t, b ≠ 0) : gzHeader (gzFixed 16 a b c d e f ++ (t ++ 0 :: r)) = .ok r := by
  unfold gzHeader
  rw [if_neg (by simp only [gzFixed, List.length_append, List.length_cons]; omega)]
  show gzOpt _ 16 (t ++ 0 :: r) = _
  unfold gzOpt
  rw [if_neg (by decide)]
  simp only [GzP.andThen]
  rw [if_neg (by decide)]
  simp only
  rw [if_pos (by decide), gzText_nul _ _ ht]
  rfl

/-- **Other data is refused as soon as ten bytes of it are there**: a wrong magic number, or another method than DEFLATE. -/
theorem gzHeader_other (l : List Byte) (h : 10 ≤ l.length) (hm : l.take 3 ≠ [31, 139, 8]) : gzHeader l = .bad := by
  unfold gzHeader
  rw [if_neg (by omega)]
  split
  · exact absurd rfl hm
  · rfl

example : gzHeader ([31, 139, 7, 0, 0, 0, 0, 0, 0, 255] ++ [1, 2]) = .bad := gzHeader_other _ (by decide) (by decide)

example : gzHeader (gzFixed 30 0 0 0 0 0 255 ++ [2, 0, 9, 9] ++ [97, 0] ++ [98, 0] ++ gzCheck (gzFixed 30 0 0 0 0 0 255 ++ [2, 0, 9, 9] ++ [97, 0] ++ [98, 0]) ++ [5]) = .ok [5] :=
  by decide +kernel

/-! ## ustar -/

/-- A block that is not zero does not follow a zero block. -/
theorem ustarBlock_after_zero (blk : List Byte) (h : ∃ b ∈ blk, b ≠ 0) : ustarBlock true blk = .bad := by
  obtain ⟨b, hb, h0⟩ := h
  unfold ustarBlock
  have : blk.all (· = 0) = false := by
    rw [List.all_eq_false]
    exact ⟨b, hb, by simpa using h0⟩
  rw [this]
  rfl

/-- The first zero block, and the second. -/
theorem ustarBlock_zero (n : Nat) : ustarBlock false (List.replicate n 0) = .blk true [] ∧ ustarBlock true (List.replicate n 0) = .fin := by
  unfold ustarBlock
  rw [List.all_replicate]
  simp

/-- **A long name is in two parts: the directory in the prefix field, the rest in the name field.** For every block whose fields are these and
whose checksum is right. -/
theorem ustarParse_prefix {blk name mode uid gid size mtime sum link magic user group dmaj dmin pre fill : List Byte} {t : Byte} {m sz s : Nat}
    (hblk : splits ustarSizes blk = [name, mode, uid, gid, size, mtime, sum, [t], link, magic, user, group, dmaj, dmin, pre, fill])
    (hm : octField mode = some m) (hsz : octField size = some sz) (hs : octField sum = some s)
    (hsum : s = ustarSum [name, mode, uid, gid, size, mtime, sum, [t], link, magic, user, group, dmaj, dmin, pre, fill])
    (dir base : Str) (hd : ∀ b ∈ dir, b ≠ 0) (hb : ∀ b ∈ base, b ≠ 0) (hne : dir ≠ []) (hp : pre = padTo 155 dir) (hn : name = padTo 100 base) :
    ∃ h, ustarParse blk = some h ∧ h.name = dir ++ [47] ++ base ∧ h.size = sz ∧ h.mode = m ∧ h.link = cstr link := by
  have e1 : cstr pre = dir := by rw [hp]; exact cstr_padTo hd
  have e2 : cstr name = base := by rw [hn]; exact cstr_padTo hb
  refine ⟨⟨dir ++ 47 :: base, sz, m, ustarType t (dir ++ 47 :: base), cstr link⟩, ?_, by simp, rfl, rfl, rfl⟩
  unfold ustarParse
  rw [hblk]
  simp only [hm, hsz, hs]
  refine (if_pos hsum).trans ?_
  rw [e1, e2, if_neg hne]

/-- `gnuHeader` with the prefix `d/e` and the checksum this takes. -/
def gnuPrefixed : List Byte :=
  gnuHeader.take 148 ++ [48, 49, 49, 49, 49, 53, 0, 32] ++ (gnuHeader.drop 156).take 189 ++ [100, 47, 101] ++ List.replicate 164 0

example : ustarParse gnuPrefixed = some ⟨[100, 47, 101] ++ [47] ++ [97, 46, 116, 120, 116], 5, 0o640, .reg, []⟩ := by decide +kernel

end Savior
