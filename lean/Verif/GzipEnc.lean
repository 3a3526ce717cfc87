import Verif.Gzip
/-!
# A gzip writer

It stores. What it writes, `gunzip` reads back: so there are gzip files of every content.
-/

namespace Savior

/-- A number below 2^32 in four bytes, least significant byte first. -/
def le4 (n : Nat) : List Byte := [UInt8.ofNat n, UInt8.ofNat (n / 256), UInt8.ofNat (n / 65536), UInt8.ofNat (n / 16777216)]

/-- A gzip file with one member: header without options, stored blocks, CRC-32, size. -/
def gzStored (bs : List Byte) : List Byte := [31, 139, 8, 0, 0, 0, 0, 0, 0, 255] ++ (storedEnc bs ++ (le4 (crc32 bs) ++ le4 (bs.length % 2 ^ 32)))

/-- These bytes take the inflater from one state, not the last, to another, and give this output. -/
inductive Feeds : ISt → List Byte → List Byte → ISt → Prop
  | nil (s) : Feeds s [] [] s
  | cons {s s1 s2 b z o o'} : s ≠ .done → inflateFeed s b = some (s1, o) → Feeds s1 z o' s2 → Feeds s (b :: z) (o ++ o') s2

theorem Feeds.one {s s1 b o} (hn : s ≠ .done) (h : inflateFeed s b = some (s1, o)) : Feeds s [b] o s1 := by
  have := Feeds.cons hn h (.nil s1)
  rwa [List.append_nil] at this

theorem Feeds.append {s s1 s2 z z' o o'} (h : Feeds s z o s1) (h' : Feeds s1 z' o' s2) : Feeds s (z ++ z') (o ++ o') s2 := by
  induction h with
  | nil => exact h'
  | cons hn hf _ ih => rw [List.cons_append, List.append_assoc]; exact .cons hn hf (ih h')

/-- One quiet byte. -/
theorem Feeds.step {s s1 s2 b z o} (hn : s ≠ .done) (h : inflateFeed s b = some (s1, [])) (h' : Feeds s1 z o s2) : Feeds s (b :: z) o s2 :=
  Feeds.cons hn h h'

theorem feeds_bytes : ∀ (bs : List Byte) (n : Nat), n = bs.length → bs ≠ [] → ∀ (w : IWork), ∃ win,
    Feeds (.busy { w with ph := .num 8 0 0 (.storedByte n) }) bs bs (afterBlock w.final win) := by
  intro bs
  induction bs with
  | nil => intro n _ h; exact absurd rfl h
  | cons b bs ih =>
    intro n hn _ w
    obtain ⟨ph, hp⟩ := num_byte_last w 8 0 0 (.storedByte n) b rfl
    simp only [Nat.zero_add, Nat.pow_zero, Nat.one_mul] at hp
    cases bs with
    | nil =>
      simp only [List.length_cons, List.length_nil] at hn
      subst hn
      refine ⟨(b :: w.win).take 32768, Feeds.one nofun (hp.trans ?_)⟩
      simp only [IWork.afterNum, IWork.number, Nat.le_refl, if_true, IWork.endBlock, UInt8.ofNat_toNat]
      cases w.final <;> rfl
    | cons b' bs =>
      have hn1 : ¬ n ≤ 1 := by simp only [List.length_cons] at hn; omega
      obtain ⟨win, hw⟩ := ih (n - 1) (by simp only [List.length_cons] at hn ⊢; omega) (by simp) { w with win := b :: w.win }
      refine ⟨win, ?_⟩
      refine Feeds.cons (o := [b]) (o' := b' :: bs) nofun (hp.trans ?_) hw
      simp only [IWork.afterNum, IWork.number, if_neg hn1, UInt8.ofNat_toNat]

theorem feeds_block (final : Bool) (bs : List Byte) (hl : bs.length ≤ 65535) (win : List Byte) : ∃ win',
    Feeds (.bound win []) (storedBlock final bs) bs (afterBlock final win') := by
  obtain ⟨w, hw⟩ : ∃ w : IWork, w = { win, final, lit := .nil, dist := .nil, ph := .align } := ⟨_, rfl⟩
  have hwf : w.final = final := by rw [hw]
  have h1 := stored_header win final
  rw [← hw] at h1
  have ha : w = { w with ph := .align } := by rw [hw]
  rw [ha] at h1
  have e0 : (UInt8.ofNat bs.length).toNat = bs.length % 256 := UInt8.toNat_ofNat'
  have e1 : (UInt8.ofNat (bs.length / 256)).toNat = bs.length / 256 := ofNat_val (by omega)
  have e2 : (UInt8.ofNat (255 - bs.length % 256)).toNat = 255 - bs.length % 256 := ofNat_val (by omega)
  have e3 : (UInt8.ofNat (255 - bs.length / 256)).toNat = 255 - bs.length / 256 := ofNat_val (by omega)
  have h2 := align_feed w (UInt8.ofNat bs.length)
  rw [e0] at h2
  have h3 := num_byte w 32 8 (bs.length % 256) .storedLen (UInt8.ofNat (bs.length / 256)) (by omega)
  rw [e1] at h3
  have h4 := num_byte w 32 16 (bs.length % 256 + 2 ^ 8 * (bs.length / 256)) .storedLen (UInt8.ofNat (255 - bs.length % 256)) (by omega)
  rw [e2] at h4
  obtain ⟨ph, h5⟩ := num_byte_last w 32 24 (bs.length % 256 + 2 ^ 8 * (bs.length / 256) + 2 ^ 16 * (255 - bs.length % 256)) .storedLen (UInt8.ofNat (255 - bs.length / 256)) rfl
  rw [e3] at h5
  obtain ⟨v, hv⟩ : ∃ v, v = bs.length % 256 + 2 ^ 8 * (bs.length / 256) + 2 ^ 16 * (255 - bs.length % 256) + 2 ^ 24 * (255 - bs.length / 256) := ⟨_, rfl⟩
  rw [← hv] at h5
  have v1 : v % 65536 = bs.length := by omega
  have v2 : v / 65536 = 65535 - bs.length := by omega
  unfold storedBlock
  by_cases hb : bs = []
  · subst hb
    refine ⟨win.take 32768, ?_⟩
    have h6 : IWork.afterNum { w with ph } v .storedLen = some (afterBlock final (win.take 32768), []) := by
      simp only [IWork.afterNum, IWork.number, v1, v2, List.length_nil, Nat.sub_zero, if_true, IWork.endBlock, hw]
      cases final <;> rfl
    exact .step nofun h1 (.step nofun h2 (.step nofun h3 (.step nofun h4 (.one nofun (h5.trans h6)))))
  · have hpos : bs.length ≠ 0 := fun h => hb (List.length_eq_zero_iff.1 h)
    obtain ⟨win', hs⟩ := feeds_bytes bs bs.length rfl hb w
    refine ⟨win', ?_⟩
    have h6 : IWork.afterNum { w with ph } v .storedLen = some (.busy { w with ph := .num 8 0 0 (.storedByte bs.length) }, []) := by
      simp only [IWork.afterNum, IWork.number, v1, v2, if_true, if_neg hpos]
    rw [show afterBlock w.final win' = afterBlock final win' by rw [hwf]] at hs
    exact .step nofun h1 (.step nofun h2 (.step nofun h3 (.step nofun h4 (.step nofun (h5.trans h6) hs))))

theorem feeds_enc : ∀ n (bs : List Byte), bs.length ≤ n → ∀ win, Feeds (.bound win []) (storedEnc bs) bs .done := by
  intro n
  induction n with
  | zero =>
    intro bs h win
    have : bs = [] := List.length_eq_zero_iff.1 (Nat.le_zero.1 h)
    subst this
    obtain ⟨win', hw⟩ := feeds_block true [] (by simp) win
    rw [storedEnc, if_pos (by simp)]
    exact hw
  | succ n ih =>
    intro bs h win
    rw [storedEnc]
    split
    · rename_i hl
      obtain ⟨win', hw⟩ := feeds_block true bs hl win
      exact hw
    · rename_i hl
      obtain ⟨win', hw⟩ := feeds_block false (bs.take 65535) (by rw [List.length_take]; omega) win
      have := hw.append (ih (bs.drop 65535) (by rw [List.length_drop]; omega) win')
      rwa [List.take_append_drop] at this

/-! ## Checksums -/

theorem crcByte_lt : ∀ n c, c < 2 ^ 32 → crcByte n c < 2 ^ 32 := by
  intro n
  induction n with
  | zero => intro c h; exact h
  | succ n ih =>
    intro c h
    unfold crcByte
    apply ih
    split
    · exact Nat.xor_lt_two_pow (by decide) (by omega)
    · omega

theorem crcMore_lt : ∀ (bs : List Byte) c, c < 2 ^ 32 → crcMore c bs < 2 ^ 32 := by
  intro bs
  induction bs with
  | nil => intro c h; exact h
  | cons b bs ih =>
    intro c h
    exact ih _ (crcByte_lt 8 _ (Nat.xor_lt_two_pow h (Nat.lt_of_lt_of_le b.toNat_lt (by decide))))

theorem crc32_lt (bs : List Byte) : crc32 bs < 2 ^ 32 := Nat.xor_lt_two_pow (crcMore_lt bs _ (by decide)) (by decide)

theorem crcMore_append (c : Nat) (a b : List Byte) : crcMore c (a ++ b) = crcMore (crcMore c a) b := by
  unfold crcMore; rw [List.foldl_append]

theorem leNat_le4 {n : Nat} (h : n < 2 ^ 32) : leNat (le4 n) = n := by
  have e : ∀ m : Nat, (UInt8.ofNat m).toNat = m % 256 := fun m => UInt8.toNat_ofNat'
  unfold le4 leNat leNat leNat leNat leNat
  rw [e, e, e, e]
  omega

/-! ## Reading back -/

section
variable (eg clean : Bool)

/-- Decoding from a state. -/
def gdec (s : GSt) (z : List Byte) : List Byte × Bool := (gunzip eg).decode s z clean

theorem gdec_step {s s' : GSt} {b : Byte} {out : List Byte} (h : gzFeed s b = some (s', out)) (z : List Byte) :
    gdec eg clean s (b :: z) = (out ++ (gdec eg clean s' z).1, (gdec eg clean s' z).2) := Decomp.decode_step (gunzip eg) clean rfl h z

theorem gdec_quiet {s s' : GSt} {b : Byte} (h : gzFeed s b = some (s', [])) (z : List Byte) : gdec eg clean s (b :: z) = gdec eg clean s' z :=
  (gdec_step eg clean h z).trans rfl

/-- The compressed data of a member. -/
theorem gdec_body {s : ISt} {z o : List Byte} {s2 : ISt} (h : Feeds s z o s2) (hd : s2 = .done) : ∀ (crc size : Nat), s ≠ .done → ∀ t,
    gdec eg clean (.body s crc size) (z ++ t) =
      (o ++ (gdec eg clean (.trail (crcMore crc o ^^^ 0xffffffff) ((size + o.length) % 2 ^ 32) []) t).1,
        (gdec eg clean (.trail (crcMore crc o ^^^ 0xffffffff) ((size + o.length) % 2 ^ 32) []) t).2) := by
  induction h with
  | nil => intro _ _ hn; exact absurd hd hn
  | @cons s s1 s2 b z o o' hn hf hr ih =>
    intro crc size _ t
    rw [List.cons_append, crcMore_append, List.length_append, ← Nat.add_assoc]
    by_cases h1 : s1 = .done
    · subst h1
      cases hr with
      | nil =>
        have hg : gzFeed (.body s crc size) b = some (.trail (crcMore crc o ^^^ 0xffffffff) ((size + o.length) % 2 ^ 32) [], o) := by
          simp only [gzFeed, hf]
        rw [gdec_step eg clean hg, List.append_nil]
        rfl
      | cons hx => exact absurd rfl hx
    · have hg : gzFeed (.body s crc size) b = some (.body s1 (crcMore crc o) (size + o.length), o) := by
        unfold gzFeed
        dsimp only
        rw [hf]
        cases s1 with
        | done => exact absurd rfl h1
        | bound _ _ => rfl
        | busy _ => rfl
      rw [gdec_step eg clean hg, ih hd _ _ h1, List.append_assoc]

/-- The trailer. -/
theorem gdec_trail {crc size : Nat} (h1 : crc < 2 ^ 32) (h2 : size < 2 ^ 32) (t : List Byte) :
    gdec eg clean (.trail crc size []) (le4 crc ++ (le4 size ++ t)) = gdec eg clean .between t := by
  have e1 := leNat_le4 h1
  have e2 := leNat_le4 h2
  generalize hA : le4 crc = A at *
  generalize hB : le4 size = B at *
  have hA' : A = [UInt8.ofNat crc, UInt8.ofNat (crc / 256), UInt8.ofNat (crc / 65536), UInt8.ofNat (crc / 16777216)] := hA.symm
  have hB' : B = [UInt8.ofNat size, UInt8.ofNat (size / 256), UInt8.ofNat (size / 65536), UInt8.ofNat (size / 16777216)] := hB.symm
  generalize UInt8.ofNat crc = a0 at hA'
  generalize UInt8.ofNat (crc / 256) = a1 at hA'
  generalize UInt8.ofNat (crc / 65536) = a2 at hA'
  generalize UInt8.ofNat (crc / 16777216) = a3 at hA'
  generalize UInt8.ofNat size = b0 at hB'
  generalize UInt8.ofNat (size / 256) = b1 at hB'
  generalize UInt8.ofNat (size / 65536) = b2 at hB'
  generalize UInt8.ofNat (size / 16777216) = b3 at hB'
  subst hA' hB'
  simp only [List.cons_append, List.nil_append]
  rw [gdec_quiet eg clean (s' := .trail crc size [a0]) rfl, gdec_quiet eg clean (s' := .trail crc size [a0, a1]) rfl,
    gdec_quiet eg clean (s' := .trail crc size [a0, a1, a2]) rfl, gdec_quiet eg clean (s' := .trail crc size [a0, a1, a2, a3]) rfl,
    gdec_quiet eg clean (s' := .trail crc size [a0, a1, a2, a3, b0]) rfl, gdec_quiet eg clean (s' := .trail crc size [a0, a1, a2, a3, b0, b1]) rfl,
    gdec_quiet eg clean (s' := .trail crc size [a0, a1, a2, a3, b0, b1, b2]) rfl]
  refine gdec_quiet eg clean ?_ t
  show (if leNat [a0, a1, a2, a3] = crc ∧ leNat [b0, b1, b2, b3] = size then some (GSt.between, []) else none) = _
  rw [if_pos ⟨e1, e2⟩]

/-- One member, at the start or after others. -/
theorem gdec_member (s : GSt) (hs : s = .head true [] ∨ s = .between) (bs t : List Byte) :
    gdec eg clean s (gzStored bs ++ t) = (bs ++ (gdec eg clean .between t).1, (gdec eg clean .between t).2) := by
  have hb : gdec eg clean s (gzStored bs ++ t) =
      gdec eg clean (.body (.bound [] []) 0xffffffff 0) (storedEnc bs ++ (le4 (crc32 bs) ++ (le4 (bs.length % 2 ^ 32) ++ t))) := by
    unfold gzStored
    simp only [List.append_assoc]
    generalize storedEnc bs ++ (le4 (crc32 bs) ++ (le4 (bs.length % 2 ^ 32) ++ t)) = Z
    simp only [List.cons_append, List.nil_append]
    obtain ⟨fst, h0⟩ : ∃ f, gzFeed s 31 = some (.head f [31], []) := by
      rcases hs with rfl | rfl
      · exact ⟨true, rfl⟩
      · exact ⟨false, rfl⟩
    rw [gdec_quiet eg clean h0, gdec_quiet eg clean (s' := .head fst [31, 139]) rfl, gdec_quiet eg clean (s' := .head fst [31, 139, 8]) rfl,
      gdec_quiet eg clean (s' := .head fst [31, 139, 8, 0]) rfl, gdec_quiet eg clean (s' := .head fst [31, 139, 8, 0, 0]) rfl,
      gdec_quiet eg clean (s' := .head fst [31, 139, 8, 0, 0, 0]) rfl, gdec_quiet eg clean (s' := .head fst [31, 139, 8, 0, 0, 0, 0]) rfl,
      gdec_quiet eg clean (s' := .head fst [31, 139, 8, 0, 0, 0, 0, 0]) rfl, gdec_quiet eg clean (s' := .head fst [31, 139, 8, 0, 0, 0, 0, 0, 0]) rfl,
      gdec_quiet eg clean (s' := .body (.bound [] []) 0xffffffff 0) rfl]
  rw [hb, gdec_body eg clean (feeds_enc bs.length bs (Nat.le_refl _) []) rfl _ _ nofun, Nat.zero_add]
  rw [show crcMore 0xffffffff bs ^^^ 0xffffffff = crc32 bs from rfl, gdec_trail eg clean (crc32_lt bs) (Nat.mod_lt _ (by decide))]

/-- **What the gzip writer makes, the gzip reader reads back.** -/
theorem gzStored_ok (bs : List Byte) : (gunzip eg).decode (gunzip eg).start (gzStored bs) true = (bs, true) := by
  have h := gdec_member eg true (.head true []) (.inl rfl) bs []
  rw [List.append_nil, show gdec eg true .between [] = ([], true) from rfl, List.append_nil] at h
  exact h

/-- Several members, one after the other. -/
theorem gzMany_ok : ∀ (l : List (List Byte)), l ≠ [] → (gunzip eg).decode (gunzip eg).start (l.map gzStored).flatten true = (l.flatten, true) := by
  have tail : ∀ l : List (List Byte), gdec eg true .between (l.map gzStored).flatten = (l.flatten, true) := by
    intro l
    induction l with
    | nil => rfl
    | cons a l ih => rw [List.map_cons, List.flatten_cons, gdec_member eg true _ (.inr rfl), ih, List.flatten_cons]
  intro l hl
  cases l with
  | nil => exact absurd rfl hl
  | cons a l =>
    have h := gdec_member eg true (.head true []) (.inl rfl) a (l.map gzStored).flatten
    rw [tail] at h
    exact h

end

theorem gzText_name (name rest : List Byte) (h : (0 : Byte) ∉ name) : gzText (name ++ 0 :: rest) = .ok rest := by
  have : (name ++ 0 :: rest).dropWhile (· ≠ 0) = 0 :: rest := by
    induction name with
    | nil => simp
    | cons b name ih =>
      simp only [List.mem_cons, not_or] at h
      rw [List.cons_append, List.dropWhile_cons_of_pos (by simpa using fun e => h.1 e.symm)]
      exact ih h.2
  unfold gzText
  rw [this]

/-- A header that carries a file name: the data begin after its final NUL. -/
theorem gzHeader_name (t : List Byte) (ht : t.length = 6) (name rest : List Byte) (h : (0 : Byte) ∉ name) :
    gzHeader (31 :: 139 :: 8 :: 8 :: (t ++ (name ++ 0 :: rest))) = .ok rest := by
  unfold gzHeader
  rw [if_neg (by simp; omega)]
  have hd : (31 :: 139 :: 8 :: 8 :: (t ++ (name ++ 0 :: rest)) : List Byte).drop 10 = name ++ 0 :: rest := by
    show (t ++ (name ++ 0 :: rest)).drop 6 = _
    rw [← ht, List.drop_left]
  simp only [hd]
  simp [gzOpt, Nat.testBit, GzP.andThen, gzText_name name rest h]

end Savior
