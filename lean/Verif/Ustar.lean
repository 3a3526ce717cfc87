import Verif.TarLemmas
import Verif.TarRun
/-!
# A real tar format: POSIX ustar

The theorems about tar extraction hold for every format `T : TarFmt` with `T.Law` (and some with `T.Exact`). Here is one such format: ustar
headers (512-byte blocks, octal numbers, checksum, name prefix), two zero blocks at the end; no PAX or GNU extensions. It shows that the
laws can be met by the format the package arkive/tar reads; no theorem about /repo rests on it.
-/

namespace Savior

/-- Fields of a header block and their sizes: name, mode, uid, gid, size, mtime, checksum, type, link name, magic and version, user, group,
device numbers, prefix, filler. -/
def ustarSizes : List Nat := [100, 8, 8, 8, 12, 12, 8, 1, 100, 8, 32, 32, 8, 8, 155, 12]

/-- Cutting a list into pieces of the given lengths. -/
def splits : List Nat → List Byte → List (List Byte)
  | [], _ => []
  | n :: ns, l => l.take n :: splits ns (l.drop n)

/-- A text field: up to the first NUL. -/
def cstr (f : List Byte) : Str := f.takeWhile (· ≠ 0)

/-- The value of octal digits; `none` if there is something else. -/
def octVal : Nat → List Byte → Option Nat
  | n, [] => some n
  | n, b :: t => if 48 ≤ b.toNat ∧ b.toNat < 56 then octVal (8 * n + (b.toNat - 48)) t else none

/-- Only the digits 0 to 7 are accepted. -/
theorem octVal_only_digits (l : List Byte) : ∀ n, (∃ v, octVal n l = some v) ↔ ∀ b ∈ l, b ∈ ([48, 49, 50, 51, 52, 53, 54, 55] : List Byte) := by
  induction l with
  | nil => intro n; simp [octVal]
  | cons b t ih =>
    intro n
    have hb : (48 ≤ b.toNat ∧ b.toNat < 56) ↔ b ∈ ([48, 49, 50, 51, 52, 53, 54, 55] : List Byte) := by
      obtain ⟨b⟩ := b
      revert b
      decide
    unfold octVal
    by_cases h : 48 ≤ b.toNat ∧ b.toNat < 56
    · rw [if_pos h, ih]
      simp only [List.forall_mem_cons, hb.mp h, true_and]
    · rw [if_neg h]
      simp only [List.forall_mem_cons, mt hb.mpr h, false_and, iff_false, reduceCtorEq, exists_false, not_false_eq_true]

/-- A number field: octal digits up to a space or NUL. -/
def octField (f : List Byte) : Option Nat := octVal 0 (f.takeWhile fun b => b ≠ 0 ∧ b ≠ 32)

/-- The sum of the bytes. -/
def byteSum (l : List Byte) : Nat := (l.map UInt8.toNat).sum

/-- The checksum of a block given by its fields: the checksum field counts as eight spaces. -/
def ustarSum (fs : List (List Byte)) : Nat := byteSum (fs.take 6).flatten + 8 * 32 + byteSum (fs.drop 7).flatten

/-- The type, given the type byte and the name: old archives mark directories by a name ending in "/". -/
def ustarType (t : Byte) (name : Str) : TType :=
  if t = 0 then (if name.getLast? = some 47 then .dir else .reg) else if t = 48 then .reg else if t = 53 then .dir else if t = 50 then .symlink else .other

/-- A header block, or `none` if it is malformed. -/
def ustarParse (blk : List Byte) : Option THdr :=
  match splits ustarSizes blk with
  | [name, mode, uid, gid, size, mtime, sum, typ, link, magic, user, group, dmaj, dmin, pre, fill] =>
    match octField mode, octField size, octField sum, typ with
    | some m, some sz, some s, [t] =>
      if s = ustarSum [name, mode, uid, gid, size, mtime, sum, typ, link, magic, user, group, dmaj, dmin, pre, fill] then
        let full := if cstr pre = [] then cstr name else cstr pre ++ 47 :: cstr name
        some ⟨full, sz, m, ustarType t full, cstr link⟩
      else none
    | _, _, _, _ => none
  | _ => none

/-- State of the reader: `data r p` — `r` bytes of content left, then `p` of padding; `blk z buf` — within a header block, `z` if the last one
was zero; `hdr h` — a header was read; end of archive; malformed. -/
inductive USt
  | data (r p : Nat)
  | blk (z : Bool) (buf : List Byte)
  | hdr (blk : List Byte)
  | fin
  | bad
  deriving DecidableEq, Repr

/-- After a whole block. -/
def ustarBlock (z : Bool) (blk : List Byte) : USt :=
  if blk.all (· = 0) then (if z then .fin else .blk true [])
  else if z then .bad
  else if (ustarParse blk).isSome then .hdr blk else .bad

/-- One byte. -/
def ustarFeed1 : USt → Byte → USt
  | .data 0 0, b => .blk false [b]
  | .data 0 (p + 1), _ => .data 0 p
  | .data (r + 1) p, _ => .data r p
  | .blk z buf, b => if buf.length + 1 < 512 then .blk z (buf ++ [b]) else ustarBlock z (buf ++ [b])
  | st, _ => st

/-- The filler after `n` bytes of content. -/
def ustarPad (n : Nat) : Nat := (512 - n % 512) % 512

/-- Reading begins after the header `h`: directories and symlinks have no content, whatever size is recorded. -/
def ustarOpened : Option THdr → USt
  | some h => if h.typ = .dir ∨ h.typ = .symlink then .data 0 0 else .data h.size.toNat (ustarPad h.size.toNat)
  | none => .data 0 0

/-- The format. -/
def ustar (eager : Bool) : TarFmt where
  St := USt
  start := .data 0 0
  want
    | .data r p => if r + p = 0 then .more 512 else .more (r + p)
    | .blk _ buf => if buf.length < 512 then .more (512 - buf.length) else .more 1
    | .hdr blk => match ustarParse blk with | some h => .hdr h | none => .bad
    | .fin => .done
    | .bad => .bad
  feed xs st := xs.foldl ustarFeed1 st
  opened
    | .hdr blk => ustarOpened (ustarParse blk)
    | _ => .data 0 0
  rem
    | .data r _ => r
    | _ => 0
  take k st := match st with
    | .data r p => .data (r - k) p
    | st => st
  eofOK st := st == .data 0 0
  save
    | .data r p => some [0, r, p]
    | .blk z buf => some (1 :: z.toNat :: buf.map UInt8.toNat)
    | .hdr blk => some (2 :: blk.map UInt8.toNat)
    | .fin => some [3]
    | .bad => some [4]
  dec
    | [0, r, p] => some (.data r p)
    | 1 :: z :: buf => some (.blk (z == 1) (buf.map UInt8.ofNat))
    | 2 :: blk => some (.hdr (blk.map UInt8.ofNat))
    | [3] => some .fin
    | [4] => some .bad
    | _ => none
  eager := eager

theorem bytes_back (l : List Byte) : (l.map UInt8.toNat).map UInt8.ofNat = l := by
  rw [List.map_map]
  conv => rhs; rw [← List.map_id l]
  exact List.map_congr_left fun b _ => by simp

theorem ustar_exact (eg : Bool) : (ustar eg).Exact := by
  intro st
  cases st with
  | data r p => exact ⟨_, rfl, rfl⟩
  | blk z buf =>
    refine ⟨_, rfl, ?_⟩
    show some (USt.blk (z.toNat == 1) ((buf.map UInt8.toNat).map UInt8.ofNat)) = _
    rw [bytes_back]
    cases z <;> rfl
  | hdr blk =>
    refine ⟨_, rfl, ?_⟩
    show some (USt.hdr ((blk.map UInt8.toNat).map UInt8.ofNat)) = some (USt.hdr blk)
    rw [bytes_back]
  | fin => exact ⟨_, rfl, rfl⟩
  | bad => exact ⟨_, rfl, rfl⟩

theorem ustar_feed_data : ∀ (xs : List Byte) (r p : Nat), xs.length ≤ r + p → xs.foldl ustarFeed1 (.data r p) = .data (r - xs.length) (p - (xs.length - r)) := by
  intro xs
  induction xs with
  | nil => intro r p _; simp
  | cons b xs ih =>
    intro r p h
    simp only [List.length_cons] at h
    rw [List.foldl_cons]
    cases r with
    | succ r =>
      rw [show ustarFeed1 (.data (r + 1) p) b = .data r p from rfl, ih r p (by omega)]
      congr 1
      · simp only [List.length_cons]; omega
      · simp only [List.length_cons]; omega
    | zero =>
      cases p with
      | zero => omega
      | succ p =>
        rw [show ustarFeed1 (.data 0 (p + 1)) b = .data 0 p from rfl, ih 0 p (by omega)]
        congr 1
        · simp only [List.length_cons]; omega
        · simp only [List.length_cons]; omega

theorem ustar_feed_blk (z : Bool) : ∀ (xs buf : List Byte), buf.length + xs.length < 512 → xs.foldl ustarFeed1 (.blk z buf) = .blk z (buf ++ xs) := by
  intro xs
  induction xs with
  | nil => intro buf _; simp
  | cons b xs ih =>
    intro buf h
    simp only [List.length_cons] at h
    rw [List.foldl_cons, show ustarFeed1 (.blk z buf) b = .blk z (buf ++ [b]) from if_pos (by omega), ih _ (by simp only [List.length_append, List.length_cons, List.length_nil]; omega)]
    simp

theorem ustar_law (eg : Bool) : (ustar eg).Law where
  ask_pos {st n} h := by
    cases st with
    | data r p =>
      simp only [ustar] at h
      split at h <;> injection h <;> omega
    | blk z buf =>
      simp only [ustar] at h
      split at h <;> injection h <;> omega
    | hdr blk =>
      simp only [ustar] at h
      split at h <;> cases h
    | fin => cases h
    | bad => cases h
  feed_nil st := rfl
  feed_append _ _ := List.foldl_append
  ask_rest {st n xs} h hl := by
    cases st with
    | data r p =>
      simp only [ustar] at h
      split at h
      · injection h with h
        subst h
        have hr : r = 0 := by omega
        have hp : p = 0 := by omega
        subst hr hp
        cases xs with
        | nil => exact ⟨512, rfl, by simp⟩
        | cons b xs =>
          simp only [List.length_cons] at hl
          have hf : (ustar eg).feed (b :: xs) (USt.data 0 0) = USt.blk false ([b] ++ xs) :=
            ustar_feed_blk false xs [b] (by simp only [List.length_cons, List.length_nil]; omega)
          rw [hf]
          refine ⟨512 - ([b] ++ xs).length, if_pos (by simp only [List.length_append, List.length_cons, List.length_nil]; omega), by simp⟩
      · injection h with h
        subst h
        have hf : (ustar eg).feed xs (USt.data r p) = USt.data (r - xs.length) (p - (xs.length - r)) := ustar_feed_data xs r p (by omega)
        rw [hf]
        exact ⟨(r - xs.length) + (p - (xs.length - r)), if_neg (by omega), by omega⟩
    | blk z buf =>
      simp only [ustar] at h
      split at h
      · injection h with h
        subst h
        have hf : (ustar eg).feed xs (USt.blk z buf) = USt.blk z (buf ++ xs) := ustar_feed_blk z xs buf (by omega)
        rw [hf]
        exact ⟨512 - (buf ++ xs).length, if_pos (by simp only [List.length_append]; omega), by simp only [List.length_append]; omega⟩
      · rename_i hn
        injection h with h
        subst h
        have : xs = [] := by cases xs with
          | nil => rfl
          | cons => simp at hl
        subst this
        exact ⟨1, if_neg hn, by simp⟩
    | hdr blk =>
      simp only [ustar] at h
      split at h <;> cases h
    | fin => cases h
    | bad => cases h
  start_asks := ⟨512, rfl⟩
  member_asks st k := by
    have : ∃ r p, (ustar eg).opened st = USt.data r p := by
      cases st with
      | hdr blk =>
        simp only [ustar, ustarOpened]
        split
        · split
          · exact ⟨_, _, rfl⟩
          · exact ⟨_, _, rfl⟩
        · exact ⟨_, _, rfl⟩
      | _ => exact ⟨_, _, rfl⟩
    obtain ⟨r, p, hr⟩ := this
    rw [hr]
    show ∃ n, (if r - k + p = 0 then TarWant.more 512 else .more (r - k + p)) = .more n
    split
    · exact ⟨_, rfl⟩
    · exact ⟨_, rfl⟩
  take_zero st := by cases st <;> rfl
  take_take st a b := by cases st <;> simp [ustar, Nat.sub_sub]
  rem_take st k := by cases st <;> simp [ustar]
  save_dec st im h := by
    right
    obtain ⟨im', a, b⟩ := ustar_exact eg st
    rw [h] at a; cases a; exact b

/-! ## Writing -/

/-- `k` octal digits. -/
def octDigits : Nat → Nat → List Byte
  | 0, _ => []
  | k + 1, n => octDigits k (n / 8) ++ [UInt8.ofNat (48 + n % 8)]

/-- Filled up with NULs. -/
def padTo (n : Nat) (l : List Byte) : List Byte := l ++ List.replicate (n - l.length) 0

def ustarFlag : TType → Byte
  | .dir => 53
  | .symlink => 50
  | .reg => 48
  | .other => 51

/-- The fields of a header, given what to put into the checksum field. Owner 0, time 0. -/
def ustarFields (h : THdr) (sum : List Byte) : List (List Byte) :=
  [padTo 100 h.name, octDigits 7 h.mode ++ [0], octDigits 7 0 ++ [0], octDigits 7 0 ++ [0], octDigits 11 h.size.toNat ++ [0], octDigits 11 0 ++ [0], sum, [ustarFlag h.typ],
    padTo 100 h.link, [117, 115, 116, 97, 114, 0, 48, 48], List.replicate 32 0, List.replicate 32 0, List.replicate 8 0, List.replicate 8 0, List.replicate 155 0,
    List.replicate 12 0]

/-- A header block. -/
def ustarHeader (h : THdr) : List Byte := (ustarFields h (octDigits 6 (ustarSum (ustarFields h [])) ++ [0, 32])).flatten

/-- A member: header, content, filler. -/
def ustarMember (m : THdr × List Byte) : List Byte := ustarHeader m.1 ++ m.2 ++ List.replicate (ustarPad m.2.length) 0

/-- An archive: the members, two zero blocks. -/
def ustarWrite (ms : List (THdr × List Byte)) : List Byte := (ms.map ustarMember).flatten ++ List.replicate 1024 0

/-- What fits into a ustar header as written here. -/
structure UstarOK (m : THdr × List Byte) : Prop where
  name_len : m.1.name.length ≤ 100
  name_nul : ∀ b ∈ m.1.name, b ≠ 0
  link_len : m.1.link.length ≤ 100
  link_nul : ∀ b ∈ m.1.link, b ≠ 0
  mode : m.1.mode < 8 ^ 7
  size : m.2.length < 8 ^ 11
  size_eq : m.1.size = m.2.length
  typ : m.1.typ ≠ .other
  content : m.1.typ ≠ .reg → m.2 = []

theorem splits_flatten : ∀ (fs : List (List Byte)) (rest : List Byte), splits (fs.map List.length) (fs.flatten ++ rest) = fs := by
  intro fs
  induction fs with
  | nil => intro rest; rfl
  | cons f fs ih =>
    intro rest
    simp only [List.map_cons, splits, List.flatten_cons, List.append_assoc]
    rw [List.take_left, List.drop_left, ih]

theorem octDigits_length : ∀ k n, (octDigits k n).length = k := by
  intro k
  induction k with
  | zero => intro n; rfl
  | succ k ih => intro n; simp [octDigits, ih]

theorem padTo_length {n : Nat} {l : List Byte} (h : l.length ≤ n) : (padTo n l).length = n := by
  unfold padTo
  rw [List.length_append, List.length_replicate]
  omega

theorem octVal_append : ∀ (l1 l2 : List Byte) (n : Nat), octVal n (l1 ++ l2) = (octVal n l1).bind (octVal · l2) := by
  intro l1
  induction l1 with
  | nil => intro l2 n; rfl
  | cons b t ih =>
    intro l2 n
    simp only [List.cons_append, octVal]
    split
    · exact ih _ _
    · rfl

theorem octVal_digits : ∀ k n, n < 8 ^ k → octVal 0 (octDigits k n) = some n := by
  intro k
  induction k with
  | zero => intro n h; simp at h; subst h; rfl
  | succ k ih =>
    intro n h
    unfold octDigits
    rw [octVal_append, ih (n / 8) (by rw [Nat.pow_succ] at h; omega)]
    simp only [Option.bind_some, octVal, UInt8.toNat_ofNat']
    rw [if_pos (by omega)]
    congr 1
    omega

theorem octDigits_nul : ∀ k n, ∀ b ∈ octDigits k n, (decide (b ≠ 0 ∧ b ≠ 32)) = true := by
  intro k
  induction k with
  | zero => intro n b h; cases h
  | succ k ih =>
    intro n b h
    unfold octDigits at h
    rw [List.mem_append] at h
    rcases h with h | h
    · exact ih _ _ h
    · rw [List.mem_singleton] at h
      have hb : b.toNat = 48 + n % 8 := by rw [h, UInt8.toNat_ofNat']; omega
      simp only [decide_eq_true_eq]
      refine ⟨fun h0 => ?_, fun h0 => ?_⟩ <;> rw [h0] at hb <;> simp at hb <;> omega

theorem takeWhile_full {p : Byte → Bool} : ∀ (l r : List Byte), (∀ b ∈ l, p b = true) → (∀ b ∈ r.head?, p b = false) → (l ++ r).takeWhile p = l := by
  intro l
  induction l with
  | nil =>
    intro r _ h
    cases r with
    | nil => rfl
    | cons b r => simp [h b (by simp)]
  | cons b l ih =>
    intro r hl hr
    rw [List.cons_append, List.takeWhile_cons_of_pos (hl b (by simp)), ih r (fun x hx => hl x (by simp [hx])) hr]

theorem octField_digits (k n : Nat) (r : List Byte) (h : n < 8 ^ k) : octField (octDigits k n ++ 0 :: r) = some n := by
  unfold octField
  rw [takeWhile_full _ _ (octDigits_nul k n) (by simp), octVal_digits k n h]

theorem cstr_padTo {n : Nat} {l : List Byte} (h : ∀ b ∈ l, b ≠ 0) : cstr (padTo n l) = l := by
  unfold cstr padTo
  refine takeWhile_full _ _ (fun b hb => by simpa using h b hb) ?_
  intro b hb
  have := List.mem_of_mem_head? hb
  rw [List.mem_replicate] at this
  simp [this.2]

theorem byteSum_le (l : List Byte) : byteSum l ≤ 255 * l.length := by
  unfold byteSum
  induction l with
  | nil => simp
  | cons b t ih =>
    simp only [List.map_cons, List.sum_cons, List.length_cons]
    have := b.toNat_lt
    omega

theorem ustarFields_sizes {h : THdr} {sum : List Byte} (hn : h.name.length ≤ 100) (hl : h.link.length ≤ 100) (hs : sum.length = 8) :
    (ustarFields h sum).map List.length = ustarSizes := by
  simp [ustarFields, ustarSizes, padTo_length hn, padTo_length hl, hs, octDigits_length]

theorem ustarSum_bound {h : THdr} (hn : h.name.length ≤ 100) (hl : h.link.length ≤ 100) : ustarSum (ustarFields h []) < 8 ^ 6 := by
  have h1 := byteSum_le ((ustarFields h []).take 6).flatten
  have h2 := byteSum_le ((ustarFields h []).drop 7).flatten
  have e1 : ((ustarFields h []).take 6).flatten.length = 148 := by
    simp [ustarFields, padTo_length hn, octDigits_length]
  have e2 : ((ustarFields h []).drop 7).flatten.length = 356 := by
    have h3 : (ustarFields h []).drop 7 = (ustarFields h (List.replicate 8 0)).drop 7 := rfl
    rw [h3, List.length_flatten, List.map_drop, ustarFields_sizes hn hl (by rw [List.length_replicate])]
    rfl
  unfold ustarSum
  omega

theorem ustarHeader_length {h : THdr} (hn : h.name.length ≤ 100) (hl : h.link.length ≤ 100) : (ustarHeader h).length = 512 := by
  unfold ustarHeader
  rw [List.length_flatten, ustarFields_sizes hn hl (by simp [octDigits_length])]
  rfl

/-- What was written is read back. -/
theorem ustarParse_header {m : THdr × List Byte} (ok : UstarOK m) : ustarParse (ustarHeader m.1) = some m.1 := by
  obtain ⟨h, c⟩ := m
  have hsz : h.size.toNat = c.length := by rw [show h.size = (c.length : Int) from ok.size_eq]; simp
  have hsp : splits ustarSizes (ustarHeader h) = ustarFields h (octDigits 6 (ustarSum (ustarFields h [])) ++ [0, 32]) := by
    rw [← ustarFields_sizes (sum := octDigits 6 (ustarSum (ustarFields h [])) ++ [0, 32]) ok.name_len ok.link_len (by simp [octDigits_length])]
    have := splits_flatten (ustarFields h (octDigits 6 (ustarSum (ustarFields h [])) ++ [0, 32])) []
    rw [List.append_nil] at this
    exact this
  have hb := ustarSum_bound (h := h) ok.name_len ok.link_len
  unfold ustarParse
  rw [hsp]
  obtain ⟨S, hS⟩ : ∃ S, S = ustarSum (ustarFields h []) := ⟨_, rfl⟩
  rw [← hS] at hb ⊢
  simp only [ustarFields]
  rw [octField_digits 7 h.mode [] ok.mode, octField_digits 11 h.size.toNat [] (by rw [hsz]; exact ok.size), octField_digits 6 S [32] hb]
  simp only
  refine (if_pos hS).trans ?_
  have hpre : cstr (List.replicate 155 (0 : Byte)) = [] := by decide
  rw [if_pos hpre, cstr_padTo ok.name_nul, cstr_padTo ok.link_nul, hsz, ← show h.size = (c.length : Int) from ok.size_eq]
  have ht : ustarType (ustarFlag h.typ) h.name = h.typ := by
    have := ok.typ
    revert this
    cases h.typ <;> intro this <;> first | rfl | exact absurd rfl this
  rw [ht]

theorem ustarHeader_nonzero (h : THdr) : (ustarHeader h).all (· = 0) = false := by
  rw [List.all_eq_false]
  refine ⟨117, ?_, by decide⟩
  exact List.mem_flatten.2 ⟨[117, 115, 116, 97, 114, 0, 48, 48], List.mem_of_getElem? (i := 9) rfl, by decide⟩

/-- Feeding the rest of a block. -/
theorem ustar_feed_block (z : Bool) (buf xs : List Byte) (b : Byte) (h : buf.length + xs.length + 1 = 512) :
    (xs ++ [b]).foldl ustarFeed1 (.blk z buf) = ustarBlock z (buf ++ xs ++ [b]) := by
  rw [List.foldl_append, ustar_feed_blk z xs buf (by omega), List.foldl_cons, List.foldl_nil]
  exact if_neg (by simp only [List.length_append]; omega)

theorem snoc_of_length {l : List Byte} {n : Nat} (h : l.length = n + 1) : ∃ xs b, l = xs ++ [b] ∧ xs.length = n := by
  rcases List.eq_nil_or_concat l with rfl | ⟨xs, b, rfl⟩
  · cases h
  · exact ⟨xs, b, List.concat_eq_append, by simpa using h⟩

/-- A whole block from between members. -/
theorem ustar_feed_data_block (eg : Bool) (blk : List Byte) (h : blk.length = 512) : (ustar eg).feed blk (USt.data 0 0) = ustarBlock false blk := by
  cases blk with
  | nil => cases h
  | cons a t =>
    obtain ⟨xs, b, rfl, hx⟩ := snoc_of_length (n := 510) (l := t) (by simpa using h)
    have := ustar_feed_block false [a] xs b (by simp [hx])
    exact this

variable {eg : Bool}

theorem ustar_want_data (r p : Nat) : (ustar eg).want (USt.data r p) = if r + p = 0 then .more 512 else .more (r + p) := rfl

theorem nextSpec_hdr {T : TarFmt} {clean : Bool} {st : T.St} {h : THdr} (Y : List Byte) (hw : T.want st = .hdr h) : nextSpec T clean st Y = some (some (h, T.opened st, Y)) := by
  rw [nextSpec.eq_def]
  simp only [hw]

theorem nextSpec_done {T : TarFmt} {clean : Bool} {st : T.St} (Y : List Byte) (hw : T.want st = .done) : nextSpec T clean st Y = some none := by
  rw [nextSpec.eq_def]
  simp only [hw]

/-- Skipping the filler. -/
theorem ustar_skip (p : Nat) (Y : List Byte) : nextSpec (ustar eg) true (USt.data 0 p) (List.replicate p 0 ++ Y) = nextSpec (ustar eg) true (USt.data 0 0) Y := by
  cases p with
  | zero => rfl
  | succ p =>
    rw [nextSpec_feed (ustar_law eg) (List.replicate (p + 1) 0) (USt.data 0 (p + 1)) (0 + (p + 1)) Y ((ustar_want_data 0 (p + 1)).trans (if_neg (by omega))) (by rw [List.length_replicate]; omega)]
    have : (ustar eg).feed (List.replicate (p + 1) 0) (USt.data 0 (p + 1)) = USt.data 0 0 := by
      refine (ustar_feed_data (List.replicate (p + 1) 0) 0 (p + 1) (by simp)).trans ?_
      simp
    rw [this]

/-- The next header. -/
theorem ustar_next {m : THdr × List Byte} (ok : UstarOK m) (Y : List Byte) :
    nextSpec (ustar eg) true (USt.data 0 0) (ustarHeader m.1 ++ Y) = some (some (m.1, USt.data m.2.length (ustarPad m.2.length), Y)) := by
  have hlen := ustarHeader_length ok.name_len ok.link_len
  rw [nextSpec_feed (ustar_law eg) (ustarHeader m.1) (USt.data 0 0) 512 Y rfl (by omega), ustar_feed_data_block eg _ hlen]
  have hb : ustarBlock false (ustarHeader m.1) = .hdr (ustarHeader m.1) := by
    unfold ustarBlock
    rw [ustarHeader_nonzero, ustarParse_header ok]
    rfl
  rw [hb]
  have hw : (ustar eg).want (USt.hdr (ustarHeader m.1)) = .hdr m.1 := by
    show (match ustarParse (ustarHeader m.1) with | some h => TarWant.hdr h | none => .bad) = _
    rw [ustarParse_header ok]
  have ho : (ustar eg).opened (USt.hdr (ustarHeader m.1)) = USt.data m.2.length (ustarPad m.2.length) := by
    show ustarOpened (ustarParse (ustarHeader m.1)) = _
    rw [ustarParse_header ok]
    unfold ustarOpened
    simp only
    split
    · rename_i h
      have : m.2 = [] := ok.content (by rcases h with h | h <;> rw [h] <;> decide)
      rw [this]
      rfl
    · rw [ok.size_eq]
      rfl
  refine (nextSpec_hdr (T := ustar eg) Y hw).trans ?_
  rw [ho]
  rfl

/-- The end. -/
theorem ustar_end : nextSpec (ustar eg) true (USt.data 0 0) (List.replicate 1024 0) = some none := by
  have hz : ∀ z, ustarBlock z (List.replicate 512 0) = if z then .fin else .blk true [] := by
    intro z
    unfold ustarBlock
    rw [if_pos (by rw [List.all_replicate]; rfl)]
  have hl : (List.replicate 512 (0 : Byte)).length = 512 := List.length_replicate
  rw [show (1024 : Nat) = 512 + 512 from rfl, ← List.replicate_append_replicate]
  generalize List.replicate 512 (0 : Byte) = R at *
  have h1 := nextSpec_feed (clean := true) (ustar_law eg) R (USt.data 0 0) 512 R rfl (by omega)
  have h2 := nextSpec_feed (clean := true) (ustar_law eg) R (USt.blk true []) 512 [] rfl (by omega)
  have h3 : (ustar eg).feed R (USt.data 0 0) = USt.blk true [] := (ustar_feed_data_block eg _ hl).trans (hz false)
  have h4 : (ustar eg).feed R (USt.blk true []) = USt.fin := by
    obtain ⟨xs, b, e, hx⟩ := snoc_of_length (n := 511) hl
    have h5 := ustar_feed_block true [] xs b (by rw [hx]; rfl)
    rw [List.nil_append, ← e] at h5
    exact h5.trans (hz true)
  rw [h3] at h1
  rw [h4, List.append_nil] at h2
  exact h1.trans (h2.trans (nextSpec_done (T := ustar eg) [] rfl))

/-- **An archive that was written holds what was written.** -/
theorem ustar_has (ms : List (THdr × List Byte)) (hok : ∀ m ∈ ms, UstarOK m) : TarHas (ustar eg) true (ustarWrite ms) ms := by
  have key : ∀ (rest done : List (THdr × List Byte)) (p : Nat) (Y0 : List Byte), (∀ m ∈ rest, UstarOK m) →
      TarPath (ustar eg) true (ustar eg).start Y0 done (USt.data 0 p) (List.replicate p 0 ++ ((rest.map ustarMember).flatten ++ List.replicate 1024 0)) →
      TarHas (ustar eg) true Y0 (done ++ rest) := by
    intro rest
    induction rest with
    | nil =>
      intro done p Y0 _ hp
      rw [List.append_nil]
      refine ⟨_, _, hp, ?_⟩
      rw [ustar_skip]
      exact ustar_end
    | cons m t ih =>
      intro done p Y0 hok hp
      have ok := hok m (by simp)
      have hn : nextSpec (ustar eg) true (USt.data 0 p) (List.replicate p 0 ++ (((m :: t).map ustarMember).flatten ++ List.replicate 1024 0)) =
          some (some (m.1, USt.data m.2.length (ustarPad m.2.length), m.2 ++ (List.replicate (ustarPad m.2.length) 0 ++ ((t.map ustarMember).flatten ++ List.replicate 1024 0)))) := by
        rw [ustar_skip, List.map_cons, List.flatten_cons, ustarMember]
        simp only [List.append_assoc]
        exact ustar_next ok _
      rw [show done ++ m :: t = (done ++ [m]) ++ t by simp]
      by_cases ht : m.1.typ = .reg
      · have h1 := TarPath.file hp hn ht (by show m.2.length ≤ _; rw [List.length_append]; omega)
        have e1 : (ustar eg).rem (USt.data m.2.length (ustarPad m.2.length)) = m.2.length := rfl
        rw [e1, List.take_left, List.drop_left] at h1
        have e2 : (ustar eg).take m.2.length (USt.data m.2.length (ustarPad m.2.length)) = USt.data 0 (ustarPad m.2.length) := by
          show USt.data (m.2.length - m.2.length) _ = _
          rw [Nat.sub_self]
        rw [e2] at h1
        exact ih (done ++ [m]) _ Y0 (fun x hx => hok x (by simp [hx])) h1
      · have h1 := TarPath.other hp hn ht
        have hc := ok.content ht
        rw [hc] at h1
        refine ih (done ++ [m]) 0 Y0 (fun x hx => hok x (by simp [hx])) ?_
        have : (m.1, ([] : List Byte)) = m := by rw [← hc]
        rw [this] at h1
        exact h1
  have := key ms [] 0 (ustarWrite ms) hok .nil
  simpa using this

/-- A header written by GNU tar (`tar --format=ustar`) for a file `a.txt` of five bytes with permissions 0640. -/
def gnuHeader : List Byte :=
  [97, 46, 116, 120, 116] ++ List.replicate 95 0 ++ [48, 48, 48, 48, 54, 52, 48, 0, 48, 48, 48, 48, 48, 48, 48, 0, 48, 48, 48, 48, 48, 48, 48, 0, 48, 48, 48, 48, 48, 48, 48, 48, 48,
    48, 53, 0, 48, 48, 48, 48, 48, 48, 48, 48, 48, 48, 48, 0, 48, 49, 48, 53, 50, 53, 0, 32, 48] ++ List.replicate 100 0 ++
    [117, 115, 116, 97, 114, 0, 48, 48, 114, 111, 111, 116] ++ List.replicate 28 0 ++ [114, 111, 111, 116] ++ List.replicate 211 0

example : ustarParse gnuHeader = some ⟨[97, 46, 116, 120, 116], 5, 0o640, .reg, []⟩ := by decide +kernel

/-- With one bit changed it is refused. -/
example : ustarParse (gnuHeader.set 0 96) = none := by decide +kernel

/-- Archives from before POSIX mark directories by their names. -/
example : ustarType 0 [97, 47] = .dir ∧ ustarType 0 [97] = .reg ∧ ustarType 53 [97] = .dir ∧ ustarType 50 [97] = .symlink ∧ ustarType 51 [97] = .other := by
  decide +kernel

end Savior
