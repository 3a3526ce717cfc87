import Verif.Spec.Gob
/-!
# Values survive gob
-/

namespace Savior.Gob

theorem beBytes_length (k n : Nat) : (beBytes k n).length = k := by
  induction k generalizing n with
  | zero => rfl
  | succ k ih => simp [beBytes, ih]

theorem beVal_append (a : List Byte) (b : Byte) : beVal (a ++ [b]) = beVal a * 256 + b.toNat := by
  simp [beVal, List.foldl_append]

theorem beVal_beBytes (k n : Nat) (h : n < 256 ^ k) : beVal (beBytes k n) = n := by
  induction k generalizing n with
  | zero => simp at h; simp [beBytes, beVal, h]
  | succ k ih =>
    rw [beBytes, beVal_append, ih _ (by rw [Nat.pow_succ] at h; omega)]
    have : (UInt8.ofNat (n % 256)).toNat = n % 256 := by
      rw [UInt8.toNat_ofNat']; omega
    rw [this]; omega

theorem nbytes_spec (n : Nat) (h : n < 2 ^ 64) : 1 ≤ nbytes n ∧ nbytes n ≤ 8 ∧ n < 256 ^ nbytes n := by
  unfold nbytes
  repeat' split
  all_goals (refine ⟨by omega, by omega, ?_⟩; first | omega | assumption)

theorem uint_back (n : Nat) (h : n < 2 ^ 64) (r : List Byte) : uintD (uintE n ++ r) = some (n, r) := by
  unfold uintE
  split
  · rename_i hn
    have : (UInt8.ofNat n).toNat = n := by rw [UInt8.toNat_ofNat']; omega
    simp [uintD, this, hn]
  · obtain ⟨h1, h2, h3⟩ := nbytes_spec n h
    generalize nbytes n = k at *
    have h4 : (UInt8.ofNat (256 - k)).toNat = 256 - k := by rw [UInt8.toNat_ofNat']; omega
    have h5 : 256 - (256 - k) = k := by omega
    rw [List.cons_append, uintD, h4, h5, if_neg (by omega), if_neg (by omega),
      if_neg (by simp [beBytes_length]),
      List.take_append_of_le_length (by simp [beBytes_length]), List.drop_append_of_le_length (by simp [beBytes_length]),
      List.take_of_length_le (by simp [beBytes_length]), List.drop_of_length_le (by simp [beBytes_length]), beVal_beBytes _ _ h3]
    rfl

theorem uintE_ne (n : Nat) : uintE n ≠ [] := by
  unfold uintE; split <;> simp

theorem int_back (i : Int) (h : I64 i) (r : List Byte) : intD (intE i ++ r) = some (i, r) := by
  unfold I64 at h
  unfold intE intD
  by_cases hi : 0 ≤ i
  · rw [if_pos hi, uint_back _ (by omega)]
    simp only [Option.some.injEq, Prod.mk.injEq, and_true]
    rw [if_pos (by omega)]; omega
  · rw [if_neg hi, uint_back _ (by omega)]
    simp only [Option.some.injEq, Prod.mk.injEq, and_true]
    rw [if_neg (by omega)]; omega

/-- Written and read back: the value, and what follows it (values of 2^64 bytes do not exist). -/
def Coder.Back {α : Type} (c : Coder α) (a : α) : Prop :=
  ∃ e, c.enc a = some e ∧ e ≠ [] ∧ (e.length < 2 ^ 64 → ∀ r, c.dec (e ++ r) = some (a, r))

/-- As a field of a struct: either it is not sent and has its zero value, or it is sent and comes back. -/
def Coder.Kept {α : Type} (c : Coder α) (a : α) : Prop :=
  (c.unsent a = true → a = c.dflt) ∧ (c.unsent a = false → c.Back a)

def Fields.Back {α : Type} (f : Fields α) (n : Nat) (a : α) : Prop :=
  ∀ gap, gap + n < 128 → ∃ e, f.enc gap a = some e ∧ e ≠ [] ∧ (e.length < 2 ^ 64 → ∀ r, ∃ d bs, uintD (e ++ r) = some (d, bs) ∧
    ((d = 0 ∧ f.dec 0 bs = some (a, r)) ∨ (gap < d ∧ f.dec (d - gap) bs = some (a, r))))

theorem nil_back : Fields.nil.Back 0 () := by
  intro gap _
  exact ⟨_, rfl, uintE_ne 0, fun _ r => ⟨0, r, uint_back 0 (by omega) r, Or.inl ⟨rfl, rfl⟩⟩⟩

theorem cons_back {α β : Type} {c : Coder α} {f : Fields β} {n : Nat} {a : α} {b : β} (ha : c.Kept a) (hb : f.Back n b) :
    (Fields.cons c f).Back (n + 1) (a, b) := by
  intro gap hg
  simp only [Fields.cons]
  cases hu : c.unsent a with
  | true =>
    simp only [if_true]
    obtain ⟨e, h1, h0, h2⟩ := hb (gap + 1) (by omega)
    refine ⟨e, h1, h0, fun hl r => ?_⟩
    obtain ⟨d, bs, h3, h4⟩ := h2 hl r
    refine ⟨d, bs, h3, ?_⟩
    have := ha.1 hu
    subst this
    rcases h4 with ⟨rfl, h4⟩ | ⟨h4, h5⟩
    · left
      exact ⟨rfl, by rw [h4]; rfl⟩
    · right
      refine ⟨by omega, ?_⟩
      rw [if_neg (by omega), if_neg (by omega), show d - gap - 1 = d - (gap + 1) by omega, h5]
      rfl
  | false =>
    obtain ⟨e, h1, _, h2⟩ := ha.2 hu
    obtain ⟨e', h3, _, h4⟩ := hb 0 (by omega)
    simp only [h1, h3, Bool.false_eq_true, if_false]
    refine ⟨_, rfl, by simp [uintE_ne], fun hl r => ?_⟩
    simp only [List.length_append] at hl
    refine ⟨gap + 1, e ++ (e' ++ r), ?_, Or.inr ⟨by omega, ?_⟩⟩
    · rw [List.append_assoc, List.append_assoc]
      exact uint_back _ (by omega) _
    · obtain ⟨d, bs, h5, h6⟩ := h4 (by omega) r
      rw [if_neg (by omega), if_pos (by omega)]
      simp only [h2 (by omega), h5]
      rcases h6 with ⟨rfl, h6⟩ | ⟨_, h6⟩
      · rw [h6]; rfl
      · rw [Nat.sub_zero] at h6
        rw [h6]; rfl

theorem struct_back {α β : Type} {f : Fields α} {n : Nat} {to : α → Option β} {from_ : β → α} {dflt : β} {b : β} (hn : n < 128)
    (hf : f.Back n (from_ b)) (ht : to (from_ b) = some b) : (structC f to from_ dflt).Back b := by
  obtain ⟨e, h1, h0, h2⟩ := hf 0 (by omega)
  refine ⟨e, h1, h0, fun hl r => ?_⟩
  obtain ⟨d, bs, h3, h4⟩ := h2 hl r
  simp only [structC, h3]
  have h5 : f.dec d bs = some (from_ b, r) := by
    rcases h4 with ⟨rfl, h4⟩ | ⟨_, h4⟩
    · exact h4
    · simpa using h4
  simp only [h5, ht, Option.map_some]

theorem uint_kept {n : Nat} (h : n < 2 ^ 64) : uintC.Kept n :=
  ⟨fun hz => by simpa [uintC] using hz, fun _ => ⟨_, rfl, uintE_ne n, fun _ => uint_back n h⟩⟩

theorem int_kept {i : Int} (h : I64 i) : intC.Kept i :=
  ⟨fun hz => by simpa [intC] using hz, fun _ => ⟨_, rfl, uintE_ne _, fun _ => int_back i h⟩⟩

theorem str_back (s : Str) (h : s.length < 2 ^ 64) (r : List Byte) : strD (uintE s.length ++ (s ++ r)) = some (s, r) := by
  unfold strD
  rw [uint_back _ h]
  simp

/-- A string said to be longer than what is left of the message is refused. -/
theorem str_short (n : Nat) (h : n < 2 ^ 64) (r : List Byte) (hr : r.length < n) : strD (uintE n ++ r) = none := by
  simp [strD, uint_back n h, hr]

theorem str_kept (s : Str) : strC.Kept s :=
  ⟨fun hz => by simpa [strC] using hz, fun _ => ⟨_, rfl, by simp [uintE_ne], fun hl r => by
    show strD (uintE s.length ++ s ++ r) = _
    rw [List.append_assoc]
    exact str_back s (by simp only [List.length_append] at hl; omega) r⟩⟩

theorem ofDigits_digits (n : Nat) : ofDigits (digits n) = n := by
  induction n using Nat.strongRecOn with
  | _ n ih =>
    rw [digits]
    split
    · rename_i h; rw [h]; rfl
    · rename_i h
      rw [ofDigits, ih _ (by omega), UInt8.toNat_ofNat']
      omega

theorem big_back (n : Nat) : bigC.Back n := by
  refine ⟨_, rfl, by simp [uintE_ne], fun hl r => ?_⟩
  show (strD (uintE (digits n).length ++ digits n ++ r)).map _ = _
  rw [List.append_assoc, str_back _ (by simp only [List.length_append] at hl; omega)]
  simp [ofDigits_digits]

theorem big_kept (n : Nat) : bigC.Kept n := ⟨fun hz => by simpa [bigC] using hz, fun _ => big_back n⟩

theorem elems_back {α : Type} {c : Coder α} (l : List α) (h : ∀ a ∈ l, c.Back a) :
    ∃ e, elemsE c l = some e ∧ l.length ≤ e.length ∧ (e.length < 2 ^ 64 → ∀ r, elemsD c l.length (e ++ r) = some (l, r)) := by
  induction l with
  | nil => exact ⟨[], rfl, by simp, fun _ r => rfl⟩
  | cons a l ih =>
    obtain ⟨e, h1, h0, h2⟩ := h a (by simp)
    obtain ⟨e', h3, h5, h4⟩ := ih fun x hx => h x (by simp [hx])
    have := List.length_pos_iff.mpr h0
    refine ⟨e ++ e', by simp [elemsE, h1, h3], by simp; omega, fun hl r => ?_⟩
    simp only [List.length_append] at hl
    simp [elemsD, List.append_assoc, h2 (by omega), h4 (by omega)]

theorem slice_kept {α : Type} {c : Coder α} {l : List α} (h : ∀ a ∈ l, c.Back a) : (sliceC c).Kept l := by
  refine ⟨fun hz => by simpa [sliceC] using hz, fun _ => ?_⟩
  obtain ⟨e, h1, h0, h2⟩ := elems_back l h
  refine ⟨uintE l.length ++ e, by simp only [sliceC, h1, Option.map_some], by simp [uintE_ne], fun he r => ?_⟩
  simp only [List.length_append] at he
  simp only [sliceC, List.append_assoc, uint_back _ (show l.length < 2 ^ 64 by omega), h2 (by omega)]

theorem ptr_kept {α : Type} {c : Coder α} {o : Option α} (h : ∀ a, o = some a → c.Back a) : (ptrC c).Kept o := by
  cases o with
  | none => exact ⟨fun _ => rfl, fun hz => by cases hz⟩
  | some a =>
    refine ⟨fun hz => (by cases hz), fun _ => ?_⟩
    obtain ⟨e, h1, h0, h2⟩ := h a rfl
    exact ⟨e, h1, h0, fun hl r => by simp [ptrC, h2 hl]⟩

theorem iface_kept {α : Type} {P : Progs} {name : α → Str} {body : Str → Option (Coder α)} {o : Option α}
    (h : ∀ v, o = some v → name v ∈ P.writer ∧ name v ∈ P.reader ∧ I64 (P.ids (name v)) ∧
      ∃ c, body (name v) = some c ∧ c.Back v) : (ifaceC P name body).Kept o := by
  cases o with
  | none => exact ⟨fun _ => rfl, fun hz => by cases hz⟩
  | some v =>
    refine ⟨fun hz => (by cases hz), fun _ => ?_⟩
    obtain ⟨h1, h2, h4, c, h5, e, h6, h0, h7⟩ := h v rfl
    refine ⟨_, by simp only [ifaceC, if_pos h1, h5, h6, Option.map_some]; rfl, by simp [uintE_ne], fun hl r => ?_⟩
    simp only [List.length_append] at hl
    have h3 : (name v).length < 2 ^ 64 := by omega
    have h8 : e.length < 2 ^ 64 := by omega
    simp only [ifaceC, List.append_assoc, str_back _ h3, if_pos h2, h5, int_back _ h4, uint_back _ h8, h7 h8, Option.map_some]

theorem kept_of_back {α : Type} {c : Coder α} {a : α} (hu : c.unsent a = false) (h : c.Back a) : c.Kept a :=
  ⟨fun h' => by rw [hu] at h'; (cases h'), fun _ => h⟩

/-- A message of a value that comes back. -/
theorem marshal_back {α : Type} {c : Coder α} {a : α} {id : Int} (hid : I64 id) (h : c.Back a) :
    ∃ n, ∀ limit, limit ≤ 2 ^ 63 →
      (n < limit → ∃ bs, marshal limit c id a = some bs ∧ unmarshal limit c bs = some a) ∧
      (limit ≤ n → marshal limit c id a = none) := by
  obtain ⟨e, h1, _, h2⟩ := h
  refine ⟨(intE id ++ e).length, fun limit hl => ⟨fun hn => ?_, fun hn => ?_⟩⟩
  · refine ⟨_, by rw [marshal]; simp only [h1]; rw [if_neg (by omega)], ?_⟩
    unfold unmarshal
    rw [uint_back _ (by omega)]
    simp only [if_neg (show ¬ limit ≤ (intE id ++ e).length by omega), Nat.lt_irrefl, if_false, List.take_length]
    rw [int_back _ hid]
    have := h2 (by simp only [List.length_append] at hn; omega) []
    rw [List.append_nil] at this
    simp [this]
  · rw [marshal]
    simp only [h1]
    rw [if_pos hn]

/-! ## The types of the repository -/

theorem dck_back {d : DCk} (h : DCkFits d) : dckC.Back d :=
  struct_back (by decide) (cons_back (int_kept h.1) (cons_back (int_kept h.2) (cons_back (slice_kept fun x _ => big_back x) nil_back))) rfl

theorem tck_back {d : TarCk} (h : I64 d.roff) : tckC.Back d :=
  struct_back (by decide) (cons_back (int_kept h) (cons_back (slice_kept fun x _ => big_back x) nil_back)) rfl

theorem tagOf_name (t : Tag) : tagOf (tagName t) = some t := by cases t <;> decide

theorem data_back {c : Coder Ckpt} {d : Data} (hs : ∀ x, d.src = some x → c.Back x) (hk : I64 d.ckOff)
    (h0 : d.tag = .flate ∨ d.tag = .brotli → d.ckOff = 0) (hd : DCkFits d.dc) : (dataC c d.tag).Back d := by
  have hp : (ptrC dckC).Kept (some d.dc) := ptr_kept fun x hx => by cases hx; exact dck_back hd
  obtain ⟨t, s, k, dc⟩ := d
  cases t with
  | gzip => exact struct_back (by decide) (cons_back (int_kept hk) (cons_back (ptr_kept hs) (cons_back hp nil_back))) rfl
  | bzip2 => exact struct_back (by decide) (cons_back (int_kept hk) (cons_back (ptr_kept hs) (cons_back hp nil_back))) rfl
  | flate =>
    have := h0 (Or.inl rfl)
    dsimp only at this
    subst this
    exact struct_back (by decide) (cons_back (ptr_kept hs) (cons_back hp nil_back)) rfl
  | brotli =>
    have := h0 (Or.inr rfl)
    dsimp only at this
    subst this
    exact struct_back (by decide) (cons_back (ptr_kept hs) (cons_back hp nil_back)) rfl

theorem ck_back {P : Progs} (N : Nat) : ∀ ck, CkStorable P N ck → (ckC P N).Back ck := by
  induction N with
  | zero => intro ck h; cases h
  | succ N ih =>
    intro ck h
    refine struct_back (n := 2) (by decide) ?_ (by cases ck <;> rfl)
    cases ck with
    | plain o => exact cons_back (int_kept h) (cons_back (iface_kept fun v hv => by cases hv) nil_back)
    | dec t o s k d =>
      obtain ⟨h1, h2, h3, h4, h5, h6, h7, h8⟩ := h
      refine cons_back (int_kept h1) (cons_back (iface_kept fun v hv => ?_) nil_back)
      cases hv
      exact ⟨h5, h6, h7, _, by rw [tagOf_name]; rfl, data_back (fun x hx => ih x (h8 x hx)) h2 h3 h4⟩

theorem entry_back {e : Entry} (h : EntryFits e) : entryC.Back e := by
  obtain ⟨h1, h2, h3, h4⟩ := h
  refine struct_back (n := 7) (by decide) (cons_back (str_kept _) (cons_back (int_kept ?_) (cons_back (uint_kept (by omega))
    (cons_back (int_kept h2) (cons_back (int_kept h3) (cons_back (int_kept h4) (cons_back (str_kept _) nil_back))))))) ?_
  · cases e.kind <;> simp [kindNum, I64]
  · obtain ⟨p, k, m, c, u, w, l⟩ := e
    cases k <;> rfl

theorem result_back {l : List Entry} (h : ∀ e ∈ l, EntryFits e) : resultC.Back l :=
  struct_back (by decide) (cons_back (slice_kept fun x hx => entry_back (h x hx)) nil_back) rfl

theorem tarState_back {s : TarState} (h : TarStateFits s) : tarStateC.Back s :=
  struct_back (by decide) (cons_back (ptr_kept fun l hl => result_back (h.1 l hl)) (cons_back (ptr_kept fun t ht => tck_back (h.2 t ht)) nil_back)) rfl

theorem prog_kept (p : Int × Int) : progC.Kept p := by
  refine ⟨fun hz => by
    have : p = (0, 1) := by simpa [progC] using hz
    exact this, fun _ => ?_⟩
  have hs : ∀ i : Int, I64 i.sign := by
    intro i
    rcases Int.lt_trichotomy i 0 with h | h | h
    · rw [Int.sign_eq_neg_one_of_neg h]; unfold I64; omega
    · rw [h]; unfold I64; decide
    · rw [Int.sign_eq_one_of_pos h]; unfold I64; omega
  obtain ⟨e, h1, h2, h3⟩ := struct_back (b := p) (to := fun (s, a, t, b, _) => some (s * a, t * b))
    (from_ := fun p : Int × Int => (p.1.sign, p.1.natAbs, p.2.sign, p.2.natAbs, ())) (dflt := (0, 1)) (n := 4) (by decide)
    (cons_back (int_kept (hs p.1)) (cons_back (big_kept _) (cons_back (int_kept (hs p.2)) (cons_back (big_kept _) nil_back))))
    (by simp [Int.sign_mul_natAbs])
  exact ⟨e, h1, h2, h3⟩

theorem eck_back {P : Progs} {N : Nat} {c : ECkpt} (h : ECkStorable P N c) : (eckC P N).Back c := by
  obtain ⟨h1, h2, h3, h4⟩ := h
  refine struct_back (n := 5) (by decide) (cons_back (ptr_kept fun x hx => ck_back N x (h1 x hx)) (cons_back (int_kept h2)
    (cons_back (ptr_kept fun x hx => entry_back (h3 x hx)) (cons_back (prog_kept _) (cons_back (iface_kept fun v hv => ?_) nil_back))))) rfl
  obtain ⟨a1, a2, a3, a4⟩ := h4 v hv
  exact ⟨a1, a2, a3, _, if_pos rfl, tarState_back a4⟩

end Savior.Gob
