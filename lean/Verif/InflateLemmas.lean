import Verif.Inflate
/-!
# DEFLATE with stored blocks: an encoder and its round trip; real streams
-/

namespace Savior

/-- The value of bits, least significant first. -/
def bitsVal : List Bool → Nat
  | [] => 0
  | b :: bs => (if b then 1 else 0) + 2 * bitsVal bs

theorem byteBits_val (b : Byte) : bitsVal (byteBits b) = b.toNat := by
  have : ∀ n, n < 256 → bitsVal ((List.range 8).map n.testBit) = n := by decide +kernel
  exact this _ (UInt8.toNat_lt b)

theorem byteBits_length (b : Byte) : (byteBits b).length = 8 := by unfold byteBits; rw [List.length_map, List.length_range]

theorem num_more (w : IWork) (need : Nat) (k : Num) : ∀ (bs : List Bool) (got acc : Nat), got + bs.length < need →
    inflateBits bs (.busy { w with ph := .num need got acc k }) = some (.busy { w with ph := .num need (got + bs.length) (acc + 2 ^ got * bitsVal bs) k }, []) := by
  intro bs
  induction bs with
  | nil => intro got acc _; simp only [inflateBits, List.length_nil, bitsVal, Nat.mul_zero, Nat.add_zero]
  | cons b bs ih =>
    intro got acc h
    simp only [List.length_cons] at h
    have hne : ¬ got + 1 = need := by omega
    simp only [inflateBits, IWork.bit, if_neg hne]
    rw [ih _ _ (by omega)]
    have e1 : got + 1 + bs.length = got + (b :: bs).length := by simp only [List.length_cons]; omega
    have e2 : (acc + if b then 2 ^ got else 0) + 2 ^ (got + 1) * bitsVal bs = acc + 2 ^ got * bitsVal (b :: bs) := by
      cases b <;> simp only [bitsVal, Nat.pow_succ, Nat.mul_add, Nat.mul_assoc, if_true, Bool.false_eq_true, if_false] <;> omega
    rw [e1, e2]
    rfl

/-- What the last bit of a number in the last bit of a byte does. -/
def IWork.afterNum (w : IWork) (v : Nat) (k : Num) : Option (ISt × List Byte) :=
  match w.number v k with
  | some (.bound win _, out) => some (.bound win [], out)
  | r => r

theorem num_last (w : IWork) (need : Nat) (k : Num) : ∀ (bs : List Bool) (got acc : Nat), got + bs.length = need → bs ≠ [] →
    ∃ ph, inflateBits bs (.busy { w with ph := .num need got acc k }) = IWork.afterNum { w with ph } (acc + 2 ^ got * bitsVal bs) k := by
  intro bs
  induction bs with
  | nil => intro got acc _ h; exact absurd rfl h
  | cons b bs ih =>
    intro got acc h _
    simp only [List.length_cons] at h
    have e2 : (acc + if b then 2 ^ got else 0) + 2 ^ (got + 1) * bitsVal bs = acc + 2 ^ got * bitsVal (b :: bs) := by
      cases b <;> simp only [bitsVal, Nat.pow_succ, Nat.mul_add, Nat.mul_assoc, if_true, Bool.false_eq_true, if_false] <;> omega
    cases bs with
    | nil =>
      have hne : got + 1 = need := by simpa using h
      simp only [bitsVal, Nat.mul_zero, Nat.add_zero] at e2
      refine ⟨.num need got acc k, ?_⟩
      simp only [inflateBits, IWork.bit, if_pos hne]
      rw [show 2 ^ got * bitsVal [b] = if b then 2 ^ got else 0 by cases b <;> simp [bitsVal]]
      unfold IWork.afterNum
      cases hn : ({ w with ph := .num need got acc k } : IWork).number (acc + if b = true then 2 ^ got else 0) k with
      | none => rfl
      | some r =>
        obtain ⟨s, out⟩ := r
        cases s with
        | bound win left => rfl
        | busy w' => simp only [Option.map_some, List.append_nil]
        | done => simp only [Option.map_some, List.append_nil]
    | cons b' bs' =>
      have hne : ¬ got + 1 = need := by simp only [List.length_cons] at h; omega
      obtain ⟨ph, hp⟩ := ih (got + 1) (acc + if b then 2 ^ got else 0) (by omega) (by simp)
      refine ⟨ph, ?_⟩
      rw [e2] at hp
      rw [← hp]
      conv => lhs; unfold inflateBits
      simp only [IWork.bit, if_neg hne]
      cases inflateBits (b' :: bs') (.busy { w with ph := .num need (got + 1) (acc + if b = true then 2 ^ got else 0) k }) with
      | none => rfl
      | some r => simp only [Option.map_some, List.nil_append]

theorem align_byte (w : IWork) (b : Byte) : inflateBits (byteBits b) (.busy { w with ph := .align }) = inflateBits (byteBits b) (.busy { w with ph := .num 32 0 0 .storedLen }) := by
  have hl := byteBits_length b
  cases hb : byteBits b with
  | nil => rw [hb] at hl; cases hl
  | cons x t =>
    rw [hb] at hl
    have h8 : ¬ (t.length + 1) % 8 ≠ 0 := by simp only [List.length_cons] at hl; omega
    simp only [inflateBits, if_neg h8, IWork.bit, Nat.zero_add, Nat.pow_zero, show ¬ (1 = 32) by decide, if_false]

/-- A stored block (RFC 1951, 3.2.4) that starts at the start of a byte. -/
def storedBlock (final : Bool) (bs : List Byte) : List Byte :=
  (if final then 1 else 0) :: UInt8.ofNat bs.length :: UInt8.ofNat (bs.length / 256) :: UInt8.ofNat (255 - bs.length % 256) :: UInt8.ofNat (255 - bs.length / 256) :: bs

/-- Everything in stored blocks. -/
def storedEnc (bs : List Byte) : List Byte :=
  if bs.length ≤ 65535 then storedBlock true bs else storedBlock false (bs.take 65535) ++ storedEnc (bs.drop 65535)
termination_by bs.length
decreasing_by rw [List.length_drop]; omega


theorem byteBits_ne (b : Byte) : byteBits b ≠ [] := fun h => by have := byteBits_length b; rw [h] at this; cases this

/-- A byte of a longer number. -/
theorem num_byte (w : IWork) (need got acc : Nat) (k : Num) (b : Byte) (h : got + 8 < need) :
    inflateFeed (.busy { w with ph := .num need got acc k }) b = some (.busy { w with ph := .num need (got + 8) (acc + 2 ^ got * b.toNat) k }, []) := by
  show inflateBits (byteBits b) _ = _
  rw [num_more w need k (byteBits b) got acc (by rw [byteBits_length]; exact h), byteBits_length, byteBits_val]

theorem num_byte_last (w : IWork) (need got acc : Nat) (k : Num) (b : Byte) (h : got + 8 = need) :
    ∃ ph, inflateFeed (.busy { w with ph := .num need got acc k }) b = IWork.afterNum { w with ph } (acc + 2 ^ got * b.toNat) k := by
  have := num_last w need k (byteBits b) got acc (by rw [byteBits_length]; exact h) (byteBits_ne b)
  rw [byteBits_val] at this
  exact this

theorem align_feed (w : IWork) (b : Byte) : inflateFeed (.busy { w with ph := .align }) b = some (.busy { w with ph := .num 32 8 b.toNat .storedLen }, []) := by
  show inflateBits (byteBits b) _ = _
  rw [align_byte]
  have := num_byte w 32 0 0 .storedLen b (by omega)
  rw [show inflateBits (byteBits b) _ = inflateFeed (.busy { w with ph := .num 32 0 0 .storedLen }) b from rfl, this]
  simp only [Nat.zero_add, Nat.pow_zero, Nat.one_mul]

theorem stored_header (win : List Byte) (final : Bool) : inflateFeed (.bound win []) (if final then 1 else 0) =
    some (.busy { win, final, lit := .nil, dist := .nil, ph := .align }, []) := by
  cases final <;> rfl

theorem Decomp.decode_step (D : Decomp) (clean : Bool) {s s' : D.St} {b : Byte} {out : List Byte} (hf : D.fin s = false) (h : D.feed s b = some (s', out)) (z : List Byte) :
    D.decode s (b :: z) clean = (out ++ (D.decode s' z clean).1, (D.decode s' z clean).2) := by
  rw [Decomp.decode.eq_def]
  dsimp only
  rw [if_neg (by rw [hf]; decide), h]

section
variable (eg : Bool) (clean : Bool)

/-- Decoding from a state. -/
def idec (s : ISt) (z : List Byte) : List Byte × Bool := (inflate eg).decode s z clean

/-- The state after a block. -/
def afterBlock (final : Bool) (win : List Byte) : ISt := if final then .done else .bound win []

/-- Decoding, one byte at a time. -/
theorem decode_feed {s s' : ISt} {b : Byte} {out : List Byte} (hf : (inflate eg).fin s = false) (h : inflateFeed s b = some (s', out)) (z : List Byte) :
    idec eg clean s (b :: z) = (out ++ (idec eg clean s' z).1, (idec eg clean s' z).2) := by
  exact Decomp.decode_step (inflate eg) clean hf h z

/-- The bytes of a stored block. -/
theorem stored_bytes : ∀ (bs : List Byte) (n : Nat), n = bs.length → bs ≠ [] → ∀ (w : IWork) (z : List Byte), ∃ win,
    idec eg clean (.busy { w with ph := .num 8 0 0 (.storedByte n) }) (bs ++ z) =
      (bs ++ (idec eg clean (afterBlock w.final win) z).1, (idec eg clean (afterBlock w.final win) z).2) := by
  intro bs
  induction bs with
  | nil => intro n _ h; exact absurd rfl h
  | cons b bs ih =>
    intro n hn _ w z
    obtain ⟨ph, hp⟩ := num_byte_last w 8 0 0 (.storedByte n) b rfl
    simp only [Nat.zero_add, Nat.pow_zero, Nat.one_mul] at hp
    cases bs with
    | nil =>
      simp only [List.length_cons, List.length_nil] at hn
      subst hn
      refine ⟨(b :: w.win).take 32768, ?_⟩
      rw [List.cons_append, List.nil_append]
      refine (decode_feed eg clean rfl (hp.trans ?_) z).trans rfl
      simp only [IWork.afterNum, IWork.number, Nat.le_refl, if_true, IWork.endBlock, UInt8.ofNat_toNat]
      cases w.final <;> rfl
    | cons b' bs =>
      have hn1 : ¬ n ≤ 1 := by simp only [List.length_cons] at hn; omega
      obtain ⟨win, hw⟩ := ih (n - 1) (by simp only [List.length_cons] at hn ⊢; omega) (by simp) { w with win := b :: w.win } z
      refine ⟨win, ?_⟩
      rw [List.cons_append]
      refine (decode_feed eg clean (s' := .busy { w with win := b :: w.win, ph := .num 8 0 0 (.storedByte (n - 1)) }) (out := [b]) rfl (hp.trans ?_) _).trans ?_
      · simp only [IWork.afterNum, IWork.number, if_neg hn1, UInt8.ofNat_toNat]
      · rw [hw]; rfl

theorem ofNat_val {n : Nat} (h : n < 256) : (UInt8.ofNat n).toNat = n := by
  rw [UInt8.toNat_ofNat']
  exact Nat.mod_eq_of_lt h

/-- A stored block decodes to its bytes. -/
theorem stored_block (final : Bool) (bs : List Byte) (hl : bs.length ≤ 65535) (win z : List Byte) : ∃ win',
    idec eg clean (.bound win []) (storedBlock final bs ++ z) =
      (bs ++ (idec eg clean (afterBlock final win') z).1, (idec eg clean (afterBlock final win') z).2) := by
  obtain ⟨w, hw⟩ : ∃ w : IWork, w = { win, final, lit := .nil, dist := .nil, ph := .align } := ⟨_, rfl⟩
  have hwf : w.final = final := by rw [hw]
  have h1 := stored_header win final
  rw [← hw] at h1
  have ha : w = { w with ph := .align } := by rw [hw]
  rw [ha] at h1
  have e0 : (UInt8.ofNat bs.length).toNat = bs.length % 256 := UInt8.toNat_ofNat'
  have e1 : (UInt8.ofNat (bs.length / 256)).toNat = bs.length / 256 := ofNat_val (by omega)
  have e2 : (UInt8.ofNat (255 - bs.length % 256)).toNat = 255 - bs.length % 256 := ofNat_val (by omega)
  have e3 : (UInt8.ofNat (255 - bs.length / 256)).toNat = 255 - bs.length / 256 := ofNat_val (by omega)
  have h2 := align_feed w (UInt8.ofNat bs.length)
  rw [e0] at h2
  have h3 := num_byte w 32 8 (bs.length % 256) .storedLen (UInt8.ofNat (bs.length / 256)) (by omega)
  rw [e1] at h3
  have h4 := num_byte w 32 16 (bs.length % 256 + 2 ^ 8 * (bs.length / 256)) .storedLen (UInt8.ofNat (255 - bs.length % 256)) (by omega)
  rw [e2] at h4
  obtain ⟨ph, h5⟩ := num_byte_last w 32 24 (bs.length % 256 + 2 ^ 8 * (bs.length / 256) + 2 ^ 16 * (255 - bs.length % 256)) .storedLen (UInt8.ofNat (255 - bs.length / 256)) rfl
  rw [e3] at h5
  obtain ⟨v, hv⟩ : ∃ v, v = bs.length % 256 + 2 ^ 8 * (bs.length / 256) + 2 ^ 16 * (255 - bs.length % 256) + 2 ^ 24 * (255 - bs.length / 256) := ⟨_, rfl⟩
  rw [← hv] at h5
  have v1 : v % 65536 = bs.length := by omega
  have v2 : v / 65536 = 65535 - bs.length := by omega
  unfold storedBlock
  simp only [List.cons_append]
  by_cases hb : bs = []
  · subst hb
    refine ⟨win.take 32768, ?_⟩
    have h6 : IWork.afterNum { w with ph } v .storedLen = some (afterBlock final (win.take 32768), []) := by
      simp only [IWork.afterNum, IWork.number, v1, v2, List.length_nil, Nat.sub_zero, if_true, IWork.endBlock, hw]
      cases final <;> rfl
    rw [decode_feed eg clean (s := .bound win []) rfl h1, decode_feed eg clean rfl h2, decode_feed eg clean rfl h3, decode_feed eg clean rfl h4,
      decode_feed eg clean rfl (h5.trans h6)]
    rfl
  · have hpos : bs.length ≠ 0 := fun h => hb (List.length_eq_zero_iff.1 h)
    obtain ⟨win', hs⟩ := stored_bytes eg clean bs bs.length rfl hb w z
    refine ⟨win', ?_⟩
    have h6 : IWork.afterNum { w with ph } v .storedLen = some (.busy { w with ph := .num 8 0 0 (.storedByte bs.length) }, []) := by
      simp only [IWork.afterNum, IWork.number, v1, v2, if_true, if_neg hpos]
    rw [decode_feed eg clean (s := .bound win []) rfl h1, decode_feed eg clean rfl h2, decode_feed eg clean rfl h3, decode_feed eg clean rfl h4,
      decode_feed eg clean rfl (h5.trans h6), hs, hwf]
    rfl

/-- What `storedEnc` makes decodes to what it was given. -/
theorem storedEnc_ok (bs : List Byte) : (inflate eg).decode (inflate eg).start (storedEnc bs) clean = (bs, true) := by
  have gen : ∀ n bs, bs.length ≤ n → ∀ win, idec eg clean (.bound win []) (storedEnc bs) = (bs, true) := by
    intro n
    induction n with
    | zero =>
      intro bs h win
      have : bs = [] := List.length_eq_zero_iff.1 (Nat.le_zero.1 h)
      subst this
      obtain ⟨win', hw⟩ := stored_block eg clean true [] (by simp) win []
      rw [storedEnc, if_pos (by simp)]
      rw [List.append_nil] at hw
      rw [hw]
      rfl
    | succ n ih =>
      intro bs h win
      rw [storedEnc]
      split
      · rename_i hl
        obtain ⟨win', hw⟩ := stored_block eg clean true bs hl win []
        rw [List.append_nil] at hw
        rw [hw]
        rw [show idec eg clean (afterBlock true win') [] = ([], true) from rfl, List.append_nil]
      · rename_i hl
        obtain ⟨win', hw⟩ := stored_block eg clean false (bs.take 65535) (by rw [List.length_take]; omega) win (storedEnc (bs.drop 65535))
        rw [hw]
        rw [show afterBlock false win' = .bound win' [] from rfl, ih (bs.drop 65535) (by rw [List.length_drop]; omega) win', List.take_append_drop]
  exact gen bs.length bs (Nat.le_refl _) []

end

end Savior
