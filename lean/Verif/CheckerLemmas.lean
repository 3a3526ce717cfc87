import Verif.Spec.Checker
/-!
# Lemmas about the checking sink
-/

namespace Savior

theorem cOpened_snoc (tr : CTrace) (x : COp × CRes) : cOpened (tr ++ [x]) = cOpened tr ++ cOpened [x] := by
  simp [cOpened, List.filterMap_append]

theorem cCount_snoc (k : Nat) (tr : CTrace) (x : COp × CRes) : cCount k (tr ++ [x]) = cCount k tr + cCount k [x] := by
  simp [cCount]

theorem snoc_split {α : Type} {tr pre post : List α} {x y : α} (h : tr ++ [x] = pre ++ y :: post) :
    (∃ post', post = post' ++ [x] ∧ tr = pre ++ y :: post') ∨ (post = [] ∧ pre = tr ∧ y = x) := by
  rcases List.eq_nil_or_concat post with rfl | ⟨p', z, rfl⟩
  · right
    have := List.append_inj' h rfl
    exact ⟨rfl, this.1.symm, by have := this.2; cases this; rfl⟩
  · left
    rw [List.concat_eq_append] at h ⊢
    have h' : tr ++ [x] = (pre ++ y :: p') ++ [z] := by rw [h]; simp
    have := List.append_inj' h' rfl
    have h2 := this.2
    cases h2
    exact ⟨p', rfl, this.1⟩

theorem CWrote.mono {tr : CTrace} {p pos b} (x) (h : CWrote tr p pos b) : CWrote (tr ++ [x]) p pos b := by
  obtain ⟨pre, post, k, bs, n, err, e, j, h1, h2⟩ := h
  exact ⟨pre, post ++ [x], k, bs, n, err, e, j, by rw [h1]; simp, h2⟩

theorem CReached.mono {tr : CTrace} {p m} (x) (h : CReached tr p m) : CReached (tr ++ [x]) p m := by
  obtain ⟨pre, post, k, bs, n, e, h1, h2⟩ := h
  exact ⟨pre, post ++ [x], k, bs, n, e, by rw [h1]; simp, h2⟩

theorem CBegan.mono {tr : CTrace} {p m} (x) (h : CBegan tr p m) : CBegan (tr ++ [x]) p m := by
  obtain ⟨pre, post, k, bs, r, e, h1, h2⟩ := h
  exact ⟨pre, post ++ [x], k, bs, r, e, by rw [h1]; simp, h2⟩

theorem CWrote.snoc {tr : CTrace} {p pos b x} (h : CWrote (tr ++ [x]) p pos b) : CWrote tr p pos b ∨
    ∃ (k : Nat) (bs : List Byte) (n : Nat) (err : Option Err) (e : Entry) (j : Nat), x = (COp.write k bs, (n, err)) ∧ (cOpened tr)[k]? = some e ∧ e.path = p ∧ j < n ∧ bs[j]? = some b ∧
      pos = e.woff + (cCount k tr : Int) + (j : Int) := by
  obtain ⟨pre, post, k, bs, n, err, e, j, h1, h2⟩ := h
  rcases snoc_split h1 with ⟨post', _, h3⟩ | ⟨_, rfl, h3⟩
  · exact .inl ⟨pre, post', k, bs, n, err, e, j, h3, h2⟩
  · exact .inr ⟨k, bs, n, err, e, j, h3.symm, h2⟩

theorem CReached.snoc {tr : CTrace} {p m x} (h : CReached (tr ++ [x]) p m) : CReached tr p m ∨
    ∃ (k : Nat) (bs : List Byte) (n : Nat) (e : Entry), x = (COp.write k bs, (n, none)) ∧ (cOpened tr)[k]? = some e ∧ e.path = p ∧ m = e.woff + (cCount k tr : Int) + (n : Int) := by
  obtain ⟨pre, post, k, bs, n, e, h1, h2⟩ := h
  rcases snoc_split h1 with ⟨post', _, h3⟩ | ⟨_, rfl, h3⟩
  · exact .inl ⟨pre, post', k, bs, n, e, h3, h2⟩
  · exact .inr ⟨k, bs, n, e, h3.symm, h2⟩

theorem CBegan.snoc {tr : CTrace} {p m x} (h : CBegan (tr ++ [x]) p m) : CBegan tr p m ∨
    ∃ (k : Nat) (bs : List Byte) (r : CRes) (e : Entry), x = (COp.write k bs, r) ∧ (cOpened tr)[k]? = some e ∧ e.path = p ∧ m = e.woff + (cCount k tr : Int) := by
  obtain ⟨pre, post, k, bs, r, e, h1, h2⟩ := h
  rcases snoc_split h1 with ⟨post', _, h3⟩ | ⟨_, rfl, h3⟩
  · exact .inl ⟨pre, post', k, bs, r, e, h3, h2⟩
  · exact .inr ⟨k, bs, r, e, h3.symm, h2⟩

theorem CNoGaps.of_snoc {tr : CTrace} {x} (h : CNoGaps (tr ++ [x])) : CNoGaps tr := by
  intro pre post e n he
  exact h pre (post ++ [x]) e n (by rw [he]; simp)

theorem cRun_snoc (ops : List COp) (op : COp) (s : CSt) :
    (cRun (ops ++ [op]) s).1 = (cRun ops s).1 ++ [(op, (cStep op (cRun ops s).2).1)] ∧
    (cRun (ops ++ [op]) s).2 = (cStep op (cRun ops s).2).2 := by
  induction ops generalizing s with
  | nil => exact ⟨rfl, rfl⟩
  | cons o ops ih =>
    simp only [List.cons_append, cRun]
    obtain ⟨a, b⟩ := ih (cStep o s).2
    exact ⟨by rw [a], b⟩

/-- What the comparison loop does: it accepts the longest correct prefix, and reports an error iff that is not everything. -/
theorem cCheck_spec (data : List Byte) (off : Nat) (bs : List Byte) :
    (cCheck data off bs).1 ≤ bs.length ∧
    (∀ j, j < (cCheck data off bs).1 → ∃ b, bs[j]? = some b ∧ data[off + j]? = some b) ∧
    ((cCheck data off bs).2 = none ↔ (cCheck data off bs).1 = bs.length) ∧
    ((cCheck data off bs).1 < bs.length → ∃ b, bs[(cCheck data off bs).1]? = some b ∧ data[off + (cCheck data off bs).1]? ≠ some b) := by
  induction bs generalizing off with
  | nil => simp [cCheck]
  | cons b bs ih =>
    unfold cCheck
    split
    · rename_i h
      simp [h]
    · rename_i x h
      split
      · rename_i hb
        simp only [List.length_cons]
        refine ⟨by omega, fun j hj => by omega, by simp, fun _ => ⟨b, by simp, ?_⟩⟩
        rw [Nat.add_zero, h]
        simp [hb]
      · rename_i hb
        have hb' : x = b := by simpa using hb
        subst hb'
        obtain ⟨i1, i2, i3, i4⟩ := ih (off + 1)
        simp only [List.length_cons]
        refine ⟨by omega, ?_, ?_, ?_⟩
        · intro j hj
          cases j with
          | zero => exact ⟨x, by simp, by simpa using h⟩
          | succ j =>
            obtain ⟨y, h1, h2⟩ := i2 j (by omega)
            exact ⟨y, by simpa using h1, by rw [← h2]; congr 1; omega⟩
        · rw [i3]; omega
        · intro hl
          obtain ⟨y, h1, h2⟩ := i4 (by omega)
          exact ⟨y, by simpa using h1, by rw [show off + ((cCheck data (off + 1) bs).1 + 1) = off + 1 + (cCheck data (off + 1) bs).1 from by omega]; exact h2⟩

/-- What is known about the sink after history `tr`. -/
structure CInv (items : List CItem) (tr : CTrace) (s : CSt) : Prop where
  items : s.items = items
  opened : s.wr.length = (cOpened tr).length
  wr : ∀ k w, s.wr[k]? = some w → ∃ e, (cOpened tr)[k]? = some e ∧ w.item.path = e.path ∧ s.item e.path = some w.item ∧
    w.item.kind = .file ∧ (w.off : Int) = e.woff + cCount k tr ∧ w.off ≤ w.item.data.length ∧ (∃ d, s.done e.path = some d) ∧ 0 ≤ e.woff ∧
    ∀ pos : Int, e.woff ≤ pos → pos < w.off → ∃ b, CWrote tr e.path pos b
  count : ∀ k, (cOpened tr).length ≤ k → cCount k tr = 0
  right : ∀ p pos b, CWrote tr p pos b → ∃ it, s.item p = some it ∧ it.kind = .file ∧ 0 ≤ pos ∧ it.data[pos.toNat]? = some b
  began : ∀ p m, CBegan tr p m → ∃ d, s.done p = some d ∧ d.minW ≤ m
  reached : ∀ p m, CReached tr p m → ∃ d it, s.done p = some d ∧ m ≤ d.maxW ∧ s.item p = some it ∧ m ≤ it.data.length
  min : ∀ p d, s.done p = some d → d.minW = 9223372036854775807 ∨ CBegan tr p d.minW
  max : ∀ p d, s.done p = some d → d.maxW = 0 ∨ CReached tr p d.maxW
  link : ∀ p d, s.done p = some d → d.link = [] ∨ ∃ e t n, (COp.symlink e t, (n, none)) ∈ tr ∧ e.path = p ∧ d.link = t
  dir : ∀ p d it, s.done p = some d → s.item p = some it → it.kind = .dir → ∃ e n, (COp.mkdir e, (n, none)) ∈ tr ∧ e.path = p

/-- An event that is not a write. -/
def COp.isWrite : COp → Bool
  | .write _ _ => true
  | _ => false

theorem cCount_nonwrite {x : COp × CRes} (h : x.1.isWrite = false) (k : Nat) : cCount k [x] = 0 := by
  obtain ⟨op, r⟩ := x
  cases op <;> simp [cCount, COp.isWrite] at h ⊢

theorem CWrote.snoc_nonwrite {tr : CTrace} {x : COp × CRes} (hx : x.1.isWrite = false) {p pos b} (h : CWrote (tr ++ [x]) p pos b) : CWrote tr p pos b := by
  rcases h.snoc with h | ⟨k, bs, n, err, e, j, rfl, _⟩
  · exact h
  · simp [COp.isWrite] at hx

theorem CReached.snoc_nonwrite {tr : CTrace} {x : COp × CRes} (hx : x.1.isWrite = false) {p m} (h : CReached (tr ++ [x]) p m) : CReached tr p m := by
  rcases h.snoc with h | ⟨k, bs, n, e, rfl, _⟩
  · exact h
  · simp [COp.isWrite] at hx

theorem CBegan.snoc_nonwrite {tr : CTrace} {x : COp × CRes} (hx : x.1.isWrite = false) {p m} (h : CBegan (tr ++ [x]) p m) : CBegan tr p m := by
  rcases h.snoc with h | ⟨k, bs, n, e, rfl, _⟩
  · exact h
  · simp [COp.isWrite] at hx

/-- A call that changed nothing. -/
theorem CInv.same {items tr s} (h : CInv items tr s) (x : COp × CRes) (hx : x.1.isWrite = false) (hop : cOpened [x] = []) :
    CInv items (tr ++ [x]) s where
  items := h.items
  opened := by rw [cOpened_snoc, hop, List.append_nil]; exact h.opened
  wr := by
    intro k w hw
    rw [cOpened_snoc, hop, List.append_nil, cCount_snoc, cCount_nonwrite hx]
    obtain ⟨e, a1, a2, a3, a4, a5, a6, a7, a8, a9⟩ := h.wr k w hw
    refine ⟨e, a1, a2, a3, a4, a5, a6, a7, a8, fun pos h1 h2 => ?_⟩
    obtain ⟨b, hb⟩ := a9 pos h1 h2
    exact ⟨b, hb.mono x⟩
  count := by
    intro k hk
    rw [cOpened_snoc, hop, List.append_nil] at hk
    rw [cCount_snoc, cCount_nonwrite hx, h.count k hk]
  right := fun p pos b hb => h.right p pos b (hb.snoc_nonwrite hx)
  began := fun p m hb => h.began p m (hb.snoc_nonwrite hx)
  reached := fun p m hb => h.reached p m (hb.snoc_nonwrite hx)
  min := fun p d hd => (h.min p d hd).imp id (·.mono x)
  max := fun p d hd => (h.max p d hd).imp id (·.mono x)
  link := fun p d hd => (h.link p d hd).imp id (fun ⟨e, t, n, h1, h2⟩ => ⟨e, t, n, List.mem_append_left _ h1, h2⟩)
  dir := fun p d it hd hit hk => (h.dir p d it hd hit hk).imp fun e ⟨n, h1, h2⟩ => ⟨n, List.mem_append_left _ h1, h2⟩

/-- A call that filed a record for path `p`, keeping its write marks. -/
theorem CInv.touch {items tr s} (h : CInv items tr s) (x : COp × CRes) (hx : x.1.isWrite = false) (hop : cOpened [x] = []) (p : Str) (d' : CDone)
    (hmin : d'.minW = ((s.done p).getD .fresh).minW) (hmax : d'.maxW = ((s.done p).getD .fresh).maxW)
    (hlink : d'.link = ((s.done p).getD .fresh).link ∨ ∃ e t n, x = (COp.symlink e t, (n, none)) ∧ e.path = p ∧ d'.link = t)
    (hdir : ∀ it, s.item p = some it → it.kind = .dir → ∃ e n, x = (COp.mkdir e, (n, none)) ∧ e.path = p) :
    CInv items (tr ++ [x]) (s.setDone p d') where
  items := h.items
  opened := by rw [cOpened_snoc, hop, List.append_nil]; exact h.opened
  wr := by
    intro k w hw
    rw [cOpened_snoc, hop, List.append_nil, cCount_snoc, cCount_nonwrite hx]
    obtain ⟨e, a1, a2, a3, a4, a5, a6, a7, a8, a9⟩ := h.wr k w hw
    refine ⟨e, a1, a2, a3, a4, a5, a6, ?_, a8, fun pos h1 h2 => ?_⟩
    · simp only [CSt.setDone]
      split
      · exact ⟨d', rfl⟩
      · exact a7
    · obtain ⟨b, hb⟩ := a9 pos h1 h2
      exact ⟨b, hb.mono x⟩
  count := by
    intro k hk
    rw [cOpened_snoc, hop, List.append_nil] at hk
    rw [cCount_snoc, cCount_nonwrite hx, h.count k hk]
  right := fun p pos b hb => h.right p pos b (hb.snoc_nonwrite hx)
  began := by
    intro q m hb
    obtain ⟨d, h1, h2⟩ := h.began q m (hb.snoc_nonwrite hx)
    simp only [CSt.setDone]
    split
    · rename_i hq
      subst hq
      exact ⟨d', rfl, by rw [hmin, h1]; exact h2⟩
    · exact ⟨d, h1, h2⟩
  reached := by
    intro q m hb
    obtain ⟨d, it, h1, h2, h3⟩ := h.reached q m (hb.snoc_nonwrite hx)
    simp only [CSt.setDone]
    split
    · rename_i hq
      subst hq
      exact ⟨d', it, rfl, by rw [hmax, h1]; exact h2, h3⟩
    · exact ⟨d, it, h1, h2, h3⟩
  min := by
    intro q d hd
    simp only [CSt.setDone] at hd
    split at hd
    · rename_i hq
      subst hq
      cases hd
      rw [hmin]
      cases hs : s.done q with
      | none => exact .inl rfl
      | some d0 => exact (h.min q d0 hs).imp id (·.mono x)
    · exact (h.min q d hd).imp id (·.mono x)
  max := by
    intro q d hd
    simp only [CSt.setDone] at hd
    split at hd
    · rename_i hq
      subst hq
      cases hd
      rw [hmax]
      cases hs : s.done q with
      | none => exact .inl rfl
      | some d0 => exact (h.max q d0 hs).imp id (·.mono x)
    · exact (h.max q d hd).imp id (·.mono x)
  link := by
    intro q d hd
    simp only [CSt.setDone] at hd
    split at hd
    · rename_i hq
      subst hq
      cases hd
      rcases hlink with hl | ⟨e, t, n, rfl, h2, h3⟩
      · rw [hl]
        cases hs : s.done q with
        | none => exact .inl rfl
        | some d0 => exact (h.link q d0 hs).imp id (fun ⟨e, t, n, h1, h2⟩ => ⟨e, t, n, List.mem_append_left _ h1, h2⟩)
      · exact .inr ⟨e, t, n, by simp, h2, h3⟩
    · exact (h.link q d hd).imp id (fun ⟨e, t, n, h1, h2⟩ => ⟨e, t, n, List.mem_append_left _ h1, h2⟩)
  dir := by
    intro q d it hd hit hk
    simp only [CSt.setDone] at hd
    split at hd
    · rename_i hq
      subst hq
      obtain ⟨e, n, rfl, h2⟩ := hdir it hit hk
      exact ⟨e, n, by simp, h2⟩
    · exact (h.dir q d it hd hit hk).imp fun e ⟨n, h1, h2⟩ => ⟨n, List.mem_append_left _ h1, h2⟩

/-- A call that, besides, handed out a writer. -/
theorem CInv.open_ {items tr s} (h : CInv items tr s) (e : Entry) (n : Nat) (it : CItem) (hit : s.item e.path = some it) (hf : it.kind = .file)
    (h0 : 0 ≤ e.woff) (h1 : e.woff ≤ it.data.length) (hp : it.path = e.path) :
    CInv items (tr ++ [(COp.open_ e, (n, none))])
      { s.setDone e.path ((s.done e.path).getD .fresh) with wr := s.wr ++ [⟨it, e.woff.toNat⟩] } := by
  -- first as if the call had failed after filing the record
  have hx : cOpened [(COp.open_ e, (n, (none : Option Err)))] = [e] := rfl
  have base := h.touch (COp.open_ e, (n, some .panic)) rfl rfl e.path ((s.done e.path).getD .fresh) rfl rfl (.inl rfl)
    (by intro it' h1 h2; rw [hit] at h1; cases h1; rw [hf] at h2; cases h2)
  have nw : (COp.open_ e, (n, (none : Option Err))).1.isWrite = false := rfl
  constructor
  · exact h.items
  · simp only [List.length_append, cOpened_snoc, hx]
    rw [h.opened]; rfl
  · intro k w hw
    rw [cOpened_snoc, hx, cCount_snoc, cCount_nonwrite nw]
    simp only at hw
    rw [List.getElem?_append] at hw
    split at hw
    · rename_i hk
      obtain ⟨e', a1, a2, a3, a4, a5, a6, a7, a8, a9⟩ := h.wr k w hw
      refine ⟨e', ?_, a2, a3, a4, a5, a6, ?_, a8, fun pos h1 h2 => ?_⟩
      · rw [List.getElem?_append_left (by rw [← h.opened]; exact hk)]; exact a1
      · simp only [CSt.setDone]
        split
        · exact ⟨_, rfl⟩
        · exact a7
      · obtain ⟨b, hb⟩ := a9 pos h1 h2
        exact ⟨b, hb.mono _⟩
    · rename_i hk
      have hk0 : k - s.wr.length = 0 := by
        by_cases hz : k - s.wr.length = 0
        · exact hz
        · rw [List.getElem?_eq_none (by simp only [List.length_singleton]; omega)] at hw; cases hw
      rw [hk0] at hw
      simp only [List.getElem?_cons_zero, Option.some.injEq] at hw
      subst hw
      have hke : k = (cOpened tr).length := by rw [← h.opened]; omega
      refine ⟨e, ?_, hp, hit, hf, ?_, ?_, ⟨_, if_pos rfl⟩, h0, ?_⟩
      · rw [hke, List.getElem?_append_right (Nat.le_refl _), Nat.sub_self]; rfl
      · rw [h.count k (by omega)]
        simp only; omega
      · simp only; omega
      · simp only; intro pos h2 h3; omega
  · intro k hk
    rw [cOpened_snoc, hx, List.length_append] at hk
    rw [cCount_snoc, cCount_nonwrite nw, h.count k (by omega)]
  · exact fun p pos b hb => h.right p pos b (hb.snoc_nonwrite nw)
  · exact fun p m hb => base.began p m ((hb.snoc_nonwrite nw).mono _)
  · exact fun p m hb => base.reached p m ((hb.snoc_nonwrite nw).mono _)
  · intro p d hd
    exact (base.min p d hd).imp id (fun hb => (hb.snoc_nonwrite rfl).mono _)
  · intro p d hd
    exact (base.max p d hd).imp id (fun hb => (hb.snoc_nonwrite rfl).mono _)
  · intro p d hd
    refine (base.link p d hd).imp id (fun ⟨e, t, m, h1, h2⟩ => ⟨e, t, m, ?_, h2⟩)
    rcases List.mem_append.1 h1 with h1 | h1
    · exact List.mem_append_left _ h1
    · simp at h1
  · intro p d it hd hit hk
    refine (base.dir p d it hd hit hk).imp fun e ⟨m, h1, h2⟩ => ⟨m, ?_, h2⟩
    rcases List.mem_append.1 h1 with h1 | h1
    · exact List.mem_append_left _ h1
    · simp at h1

theorem cCount_write (k j : Nat) (bs : List Byte) (r : CRes) : cCount j [(COp.write k bs, r)] = if k = j then r.1 else 0 := by
  simp [cCount]

/-- A write. -/
theorem CInv.write {items tr s} (h : CInv items tr s) (k : Nat) (bs : List Byte) :
    CInv items (tr ++ [(COp.write k bs, (cWrite k bs s).1)]) (cWrite k bs s).2 := by
  have hop : ∀ r, cOpened [(COp.write k bs, r)] = [] := fun _ => rfl
  unfold cWrite
  cases hw : s.wr[k]? with
  | none =>
    simp only
    have hk : (cOpened tr).length ≤ k := by rw [← h.opened]; exact List.getElem?_eq_none_iff.1 hw
    have hno : ∀ e, (cOpened tr)[k]? ≠ some e := by intro e; rw [List.getElem?_eq_none hk]; simp
    constructor
    · exact h.items
    · rw [cOpened_snoc, hop, List.append_nil]; exact h.opened
    · intro j w hj
      rw [cOpened_snoc, hop, List.append_nil, cCount_snoc, cCount_write]
      obtain ⟨e, a1, a2, a3, a4, a5, a6, a7, a8, a9⟩ := h.wr j w hj
      refine ⟨e, a1, a2, a3, a4, by simpa using a5, a6, a7, a8, fun pos h1 h2 => ?_⟩
      obtain ⟨b, hb⟩ := a9 pos h1 h2
      exact ⟨b, hb.mono _⟩
    · intro j hj
      rw [cOpened_snoc, hop, List.append_nil] at hj
      rw [cCount_snoc, cCount_write, h.count j hj]; simp
    · intro p pos b hb
      rcases hb.snoc with hb | ⟨k', _, _, _, e, _, hx, he, _⟩
      · exact h.right p pos b hb
      · cases hx; exact absurd he (hno e)
    · intro p m hb
      rcases hb.snoc with hb | ⟨k', _, _, e, hx, he, _⟩
      · exact h.began p m hb
      · cases hx; exact absurd he (hno e)
    · intro p m hb
      rcases hb.snoc with hb | ⟨k', _, _, e, hx, he, _⟩
      · exact h.reached p m hb
      · cases hx
    · exact fun p d hd => (h.min p d hd).imp id (·.mono _)
    · exact fun p d hd => (h.max p d hd).imp id (·.mono _)
    · exact fun p d hd => (h.link p d hd).imp id (fun ⟨e, t, n, h1, h2⟩ => ⟨e, t, n, List.mem_append_left _ h1, h2⟩)
    · exact fun p d it hd hit hk => (h.dir p d it hd hit hk).imp fun e ⟨n, h1, h2⟩ => ⟨n, List.mem_append_left _ h1, h2⟩
  | some w =>
    simp only
    obtain ⟨e, a1, a2, a3, a4, a5, a6, ⟨d0, a7⟩, a8, a9⟩ := h.wr k w hw
    obtain ⟨c1, c2, c3, c4⟩ := cCheck_spec w.item.data w.off bs
    have hkl : k < s.wr.length := (List.getElem?_eq_some_iff.1 hw).1
    -- what was accepted is within the reference
    have hend : w.off + (cCheck w.item.data w.off bs).1 ≤ w.item.data.length := by
      by_cases hz : (cCheck w.item.data w.off bs).1 = 0
      · omega
      · obtain ⟨b, _, hb⟩ := c2 ((cCheck w.item.data w.off bs).1 - 1) (by omega)
        have := (List.getElem?_eq_some_iff.1 hb).1
        omega
    rw [a2, a7]
    simp only [Option.getD_some]
    generalize cCheck w.item.data w.off bs = q at *
    obtain ⟨n, err⟩ := q
    simp only at *
    -- the marks
    generalize hd1 : (if (w.off : Int) < d0.minW then ({ d0 with minW := w.off } : CDone) else d0) = d1
    have hd1min : d1.minW ≤ d0.minW ∧ d1.minW ≤ w.off ∧ (d1.minW = d0.minW ∨ d1.minW = w.off) ∧ d1.maxW = d0.maxW ∧ d1.link = d0.link := by
      rw [← hd1]
      split
      · exact ⟨by simp only; omega, by simp only; omega, .inr rfl, rfl, rfl⟩
      · exact ⟨by omega, by omega, .inl rfl, rfl, rfl⟩
    generalize hd2 : (if err = none ∧ ((w.off + n : Nat) : Int) > d1.maxW then ({ d1 with maxW := (w.off + n : Nat) } : CDone) else d1) = d2
    have hd2max : d0.maxW ≤ d2.maxW ∧ (err = none → ((w.off + n : Nat) : Int) ≤ d2.maxW) ∧ (d2.maxW = d0.maxW ∨ (err = none ∧ d2.maxW = ((w.off + n : Nat) : Int))) ∧ d2.minW = d1.minW ∧ d2.link = d0.link := by
      rw [← hd2]
      split
      · rename_i hc
        exact ⟨by simp only; omega, fun _ => by simp only; omega, .inr ⟨hc.1, rfl⟩, rfl, hd1min.2.2.2.2⟩
      · rename_i hc
        refine ⟨by omega, fun he => ?_, .inl hd1min.2.2.2.1, rfl, hd1min.2.2.2.2⟩
        have : ¬ ((w.off + n : Nat) : Int) > d1.maxW := fun hh => hc ⟨he, hh⟩
        omega
    clear hd1 hd2
    obtain ⟨m1, m2, m3, m4, m5⟩ := hd1min
    obtain ⟨x1, x2, x3, x4, x5⟩ := hd2max
    have hbegan : CBegan (tr ++ [(COp.write k bs, (n, err))]) e.path (w.off : Int) := ⟨tr, [], k, bs, (n, err), e, rfl, a1, rfl, a5⟩
    constructor
    · exact h.items
    · rw [cOpened_snoc, hop, List.append_nil]; simp only [List.length_set]; exact h.opened
    · intro j v hj
      rw [cOpened_snoc, hop, List.append_nil, cCount_snoc, cCount_write]
      simp only at hj ⊢
      rw [List.getElem?_set] at hj
      split at hj
      · rename_i hjk
        subst hjk
        cases hj
        refine ⟨e, a1, a2, a3, a4, ?_, hend, ⟨d2, if_pos rfl⟩, a8, ?_⟩
        · simp only; rw [if_pos trivial]; omega
        · intro pos h1 h2
          simp only at h2
          by_cases hlt : pos < w.off
          · obtain ⟨b, hb⟩ := a9 pos h1 hlt
            exact ⟨b, hb.mono _⟩
          · obtain ⟨b, hb1, _⟩ := c2 (pos - w.off).toNat (by omega)
            refine ⟨b, tr, [], k, bs, n, err, e, (pos - w.off).toNat, rfl, a1, rfl, by omega, hb1, by omega⟩
      · rename_i hjk
        rw [if_neg hjk]
        obtain ⟨e', b1, b2, b3, b4, b5, b6, b7, b8, b9⟩ := h.wr j v hj
        refine ⟨e', b1, b2, b3, b4, b5, b6, ?_, b8, fun pos h1 h2 => ?_⟩
        · simp only [CSt.setDone]
          split
          · exact ⟨_, rfl⟩
          · exact b7
        · obtain ⟨b, hb⟩ := b9 pos h1 h2
          exact ⟨b, hb.mono _⟩
    · intro j hj
      rw [cOpened_snoc, hop, List.append_nil] at hj
      rw [cCount_snoc, cCount_write, h.count j hj, if_neg (by rw [← h.opened] at hj; omega)]
    · intro p pos b hb
      rcases hb.snoc with hb | ⟨k', bs', n', err', e', j, hx, he, hp, hj, hbj, hpos⟩
      · exact h.right p pos b hb
      · cases hx
        rw [a1] at he
        cases he
        subst hp
        refine ⟨w.item, a3, a4, by omega, ?_⟩
        obtain ⟨y, hy1, hy2⟩ := c2 j hj
        rw [hbj] at hy1
        cases hy1
        rw [← hy2]
        congr 1; omega
    · intro p m hb
      simp only [CSt.setDone]
      rcases hb.snoc with hb | ⟨k', _, _, e', hx, he, hp, hm⟩
      · obtain ⟨d, h1, h2⟩ := h.began p m hb
        split
        · rename_i hq
          subst hq
          rw [a7] at h1
          cases h1
          exact ⟨d2, rfl, by omega⟩
        · exact ⟨d, h1, h2⟩
      · cases hx
        rw [a1] at he
        cases he
        subst hp
        exact ⟨d2, if_pos rfl, by omega⟩
    · intro p m hb
      simp only [CSt.setDone]
      rcases hb.snoc with hb | ⟨k', _, _, e', hx, he, hp, hm⟩
      · obtain ⟨d, it, h1, h2, h3⟩ := h.reached p m hb
        split
        · rename_i hq
          subst hq
          rw [a7] at h1
          cases h1
          exact ⟨d2, it, rfl, by omega, h3⟩
        · exact ⟨d, it, h1, h2, h3⟩
      · cases hx
        rw [a1] at he
        cases he
        subst hp
        have := x2 rfl
        exact ⟨d2, w.item, if_pos rfl, by omega, a3, by omega⟩
    · intro p d hd
      simp only [CSt.setDone] at hd
      split at hd
      · rename_i hq
        subst hq
        cases hd
        rw [x4]
        rcases m3 with m3 | m3
        · rw [m3]; exact (h.min _ _ a7).imp id (·.mono _)
        · rw [m3]; exact .inr hbegan
      · exact (h.min p d hd).imp id (·.mono _)
    · intro p d hd
      simp only [CSt.setDone] at hd
      split at hd
      · rename_i hq
        subst hq
        cases hd
        rcases x3 with x3 | ⟨rfl, x3⟩
        · rw [x3]; exact (h.max _ _ a7).imp id (·.mono _)
        · rw [x3]
          exact .inr ⟨tr, [], k, bs, n, e, rfl, a1, rfl, by omega⟩
      · exact (h.max p d hd).imp id (·.mono _)
    · intro p d hd
      simp only [CSt.setDone] at hd
      split at hd
      · rename_i hq
        subst hq
        cases hd
        rw [x5]
        exact (h.link _ _ a7).imp id (fun ⟨e, t, n, h1, h2⟩ => ⟨e, t, n, List.mem_append_left _ h1, h2⟩)
      · exact (h.link p d hd).imp id (fun ⟨e, t, n, h1, h2⟩ => ⟨e, t, n, List.mem_append_left _ h1, h2⟩)
    · intro p d it hd hit hk
      simp only [CSt.setDone] at hd
      split at hd
      · rename_i hq
        subst hq
        exact (h.dir _ d0 it a7 hit hk).imp fun e ⟨n, h1, h2⟩ => ⟨n, List.mem_append_left _ h1, h2⟩
      · exact (h.dir p d it hd hit hk).imp fun e ⟨n, h1, h2⟩ => ⟨n, List.mem_append_left _ h1, h2⟩

theorem CSt.item_path {s : CSt} {p : Str} {it : CItem} (h : s.item p = some it) : it.path = p := by
  have := List.find?_some h
  simpa using this

theorem setDone_same (s : CSt) (p : Str) (d d' : CDone) : (s.setDone p d).setDone p d' = s.setDone p d' := by
  unfold CSt.setDone
  congr 1
  funext q
  by_cases h : q = p <;> simp [h]

theorem CInv.step {items tr s} (h : CInv items tr s) (op : COp) : CInv items (tr ++ [(op, (cStep op s).1)]) (cStep op s).2 := by
  cases op with
  | write k bs => exact h.write k bs
  | mkdir e =>
    simp only [cStep, cMkdir, cWith]
    cases hi : s.item e.path with
    | none => exact h.same _ rfl rfl
    | some it =>
      simp only
      split
      · exact h.same _ rfl rfl
      · exact h.touch _ rfl rfl _ _ rfl rfl (.inl rfl) (fun _ _ _ => ⟨e, 0, rfl, rfl⟩)
  | prealloc e =>
    simp only [cStep, cPrealloc, cWith]
    cases hi : s.item e.path with
    | none => exact h.same _ rfl rfl
    | some it =>
      simp only
      split
      · exact h.same _ rfl rfl
      · rename_i hk
        refine h.touch _ rfl rfl _ _ rfl rfl (.inl rfl) (fun it' h1 h2 => ?_)
        rw [hi] at h1; cases h1; rw [h2] at hk; exact absurd hk (by simp)
  | symlink e t =>
    simp only [cStep, cSymlink, cWith]
    cases hi : s.item e.path with
    | none => exact h.same _ rfl rfl
    | some it =>
      simp only
      split
      · exact h.same _ rfl rfl
      · rename_i hk
        have hdir : ∀ x : COp × CRes, ∀ it', s.item e.path = some it' → it'.kind = .dir → ∃ e' n, x = (COp.mkdir e', (n, none)) ∧ e'.path = e.path := by
          intro x it' h1 h2
          rw [hi] at h1; cases h1; rw [h2] at hk; exact absurd hk (by simp)
        split
        · exact h.touch _ rfl rfl _ _ rfl rfl (.inl rfl) (hdir _)
        · simp only [setDone_same]
          exact h.touch _ rfl rfl _ _ rfl rfl (.inr ⟨e, t, 0, rfl, rfl, rfl⟩) (hdir _)
  | open_ e =>
    simp only [cStep, cOpen, cWith]
    cases hi : s.item e.path with
    | none => exact h.same _ rfl rfl
    | some it =>
      simp only
      split
      · exact h.same _ rfl rfl
      · rename_i hk
        have hk' : it.kind = .file := by simpa using hk
        split
        · unfold cSeek
          split
          · rename_i hs
            split at hs
            · cases hs
              refine h.touch _ rfl rfl _ _ rfl rfl (.inl rfl) (fun it' h1 h2 => ?_)
              rw [hi] at h1; cases h1; rw [h2] at hk'; cases hk'
            · split at hs
              · cases hs
                refine h.touch _ rfl rfl _ _ rfl rfl (.inl rfl) (fun it' h1 h2 => ?_)
                rw [hi] at h1; cases h1; rw [h2] at hk'; cases hk'
              · cases hs
          · rename_i o hs
            split at hs
            · cases hs
            · split at hs
              · cases hs
              · cases hs
                exact h.open_ e 0 it hi hk' (by omega) (by omega) (CSt.item_path hi)
        · rename_i hw
          have hw : e.woff = 0 := by simpa using hw
          have := h.open_ e 0 it hi hk' (by omega) (by omega) (CSt.item_path hi)
          rw [hw] at this
          exact this

theorem cRun_inv (items : List CItem) (ops : List COp) (s : CSt) (hs : s.items = items) (hd : s.done = fun _ => none) (hw : s.wr = []) :
    CInv items (cRun ops s).1 (cRun ops s).2 := by
  have nil : ∀ {α : Type} {pre post : List α} {x : α}, [] ≠ pre ++ x :: post := by intro α pre post x h; simp at h
  have key : ∀ n, ∀ ops : List COp, ops.length = n → CInv items (cRun ops s).1 (cRun ops s).2 := by
    intro n
    induction n with
    | zero =>
      intro ops hl
      have : ops = [] := List.length_eq_zero_iff.1 hl
      subst this
      show CInv items [] s
      constructor
      · exact hs
      · rw [hw]; rfl
      · intro k w h; rw [hw] at h; simp at h
      · intro k _; rfl
      · rintro p pos b ⟨pre, post, _, _, _, _, _, _, h, _⟩; exact absurd h nil
      · rintro p m ⟨pre, post, _, _, _, _, h, _⟩; exact absurd h nil
      · rintro p m ⟨pre, post, _, _, _, _, h, _⟩; exact absurd h nil
      · intro p d h; rw [hd] at h; cases h
      · intro p d h; rw [hd] at h; cases h
      · intro p d h; rw [hd] at h; cases h
      · intro p d it h; rw [hd] at h; cases h
    | succ n ih =>
      intro ops hl
      rcases List.eq_nil_or_concat ops with rfl | ⟨ops', op, rfl⟩
      · simp at hl
      · rw [List.concat_eq_append] at hl ⊢
        obtain ⟨h1, h2⟩ := cRun_snoc ops' op s
        rw [h1, h2]
        exact (ih ops' (by simpa using hl)).step op
  exact key _ ops rfl

/-- If writers are never opened past what had been reached, everything below a reached position was written. -/
theorem cNoGaps_covers {items : List CItem} {s : CSt} (hs : s.items = items) (hd : s.done = fun _ => none) (hw : s.wr = []) (n : Nat) :
    ∀ ops : List COp, ops.length = n → CNoGaps (cRun ops s).1 → ∀ p m, CReached (cRun ops s).1 p m → ∀ pos : Int, 0 ≤ pos → pos < m →
      ∃ b, CWrote (cRun ops s).1 p pos b := by
  -- together with: below the offset of every open writer everything was written
  suffices H : ∀ ops : List COp, ops.length = n → CNoGaps (cRun ops s).1 →
      (∀ p m, CReached (cRun ops s).1 p m → ∀ pos : Int, 0 ≤ pos → pos < m → ∃ b, CWrote (cRun ops s).1 p pos b) ∧
      (∀ (k : Nat) (e : Entry), (cOpened (cRun ops s).1)[k]? = some e → ∀ pos : Int, 0 ≤ pos → pos < e.woff → ∃ b, CWrote (cRun ops s).1 e.path pos b) by
    intro ops h1 h2; exact (H ops h1 h2).1
  induction n with
  | zero =>
    intro ops hl _
    have : ops = [] := List.length_eq_zero_iff.1 hl
    subst this
    refine ⟨?_, ?_⟩
    · rintro p m ⟨pre, post, _, _, _, _, h, _⟩; simp [cRun] at h
    · intro k e h; simp [cRun, cOpened] at h
  | succ n ih =>
    intro ops hl hg
    rcases List.eq_nil_or_concat ops with rfl | ⟨ops', op, rfl⟩
    · simp at hl
    · rw [List.concat_eq_append] at hl hg ⊢
      obtain ⟨h1, h2⟩ := cRun_snoc ops' op s
      rw [h1] at hg ⊢
      obtain ⟨i1, i2⟩ := ih ops' (by simpa using hl) hg.of_snoc
      have inv := cRun_inv items ops' s hs hd hw
      have inv' := inv.step op
      generalize (cStep op (cRun ops' s).2) = q at *
      obtain ⟨r, s'⟩ := q
      simp only at *
      refine ⟨?_, ?_⟩
      · intro p m hr pos hp0 hpm
        rcases hr.snoc with hr | ⟨k, bs, c, e, hx, he, hp, hm⟩
        · obtain ⟨b, hb⟩ := i1 p m hr pos hp0 hpm
          exact ⟨b, hb.mono _⟩
        · subst hp
          by_cases hlt : pos < e.woff
          · obtain ⟨b, hb⟩ := i2 k e he pos hp0 hlt
            exact ⟨b, hb.mono _⟩
          · have hk : k < s'.wr.length := by
              rw [inv'.opened, cOpened_snoc, List.length_append]
              have := (List.getElem?_eq_some_iff.1 he).1
              omega
            obtain ⟨e', b1, _, _, _, b5, _, _, _, b9⟩ := inv'.wr k _ (List.getElem?_eq_getElem hk)
            rw [cOpened_snoc, List.getElem?_append_left (List.getElem?_eq_some_iff.1 he).1, he] at b1
            cases b1
            cases hx
            rw [cCount_snoc, cCount_write, if_pos rfl] at b5
            exact b9 pos (by omega) (by simp only at b5; omega)
      · intro k e he pos hp0 hpw
        rw [cOpened_snoc, List.getElem?_append] at he
        split at he
        · obtain ⟨b, hb⟩ := i2 k e he pos hp0 hpw
          exact ⟨b, hb.mono _⟩
        · -- the writer was opened just now
          have hx : ∃ n, (op, r) = (COp.open_ e, (n, none)) := by
            have hm := List.mem_of_getElem? he
            simp only [cOpened, List.mem_filterMap, List.mem_singleton] at hm
            obtain ⟨x, rfl, hx⟩ := hm
            revert hx
            split
            · intro h; cases h; rename_i hh; exact ⟨_, hh⟩
            · intro h; cases h
          obtain ⟨c, hx⟩ := hx
          cases hx
          rcases hg (cRun ops' s).1 [] e c rfl with h0 | ⟨m, hr, hm⟩
          · omega
          · obtain ⟨b, hb⟩ := i1 e.path m hr pos hp0 (by omega)
            exact ⟨b, hb.mono _⟩

/-- What a call does to the records: none disappears, and a recorded target changes only to that of the item. -/
theorem cStep_keep (op : COp) (s : CSt) (p : Str) (d : CDone) (hd : s.done p = some d) :
    ∃ d', (cStep op s).2.done p = some d' ∧ (d'.link = d.link ∨ ∃ it, s.item p = some it ∧ d'.link = it.link) := by
  have set : ∀ (q : Str) (x : CDone), (q = p → x.link = d.link ∨ ∃ it, s.item p = some it ∧ x.link = it.link) →
      ∃ d', (s.setDone q x).done p = some d' ∧ (d'.link = d.link ∨ ∃ it, s.item p = some it ∧ d'.link = it.link) := by
    intro q x hx
    unfold CSt.setDone
    by_cases h : p = q
    · exact ⟨x, by simp [h], hx h.symm⟩
    · exact ⟨d, by simp [h, hd], .inl rfl⟩
  have self : ∀ q : Str, q = p → ((s.done q).getD .fresh).link = d.link ∨ ∃ it, s.item p = some it ∧ ((s.done q).getD .fresh).link = it.link := by
    intro q h; subst h; rw [hd]; exact .inl rfl
  cases op with
  | mkdir e =>
    simp only [cStep, cMkdir, cWith]
    cases hi : s.item e.path with
    | none => exact ⟨d, hd, .inl rfl⟩
    | some it =>
      simp only
      split
      · exact ⟨d, hd, .inl rfl⟩
      · exact set _ _ (self _)
  | prealloc e =>
    simp only [cStep, cPrealloc, cWith]
    cases hi : s.item e.path with
    | none => exact ⟨d, hd, .inl rfl⟩
    | some it =>
      simp only
      split
      · exact ⟨d, hd, .inl rfl⟩
      · exact set _ _ (self _)
  | symlink e t =>
    simp only [cStep, cSymlink, cWith]
    cases hi : s.item e.path with
    | none => exact ⟨d, hd, .inl rfl⟩
    | some it =>
      simp only
      split
      · exact ⟨d, hd, .inl rfl⟩
      · split
        · exact set _ _ (self _)
        · rename_i hl
          simp only [setDone_same]
          exact set _ _ (fun h => .inr ⟨it, by rw [← h]; exact hi, (Decidable.not_not.1 hl).symm⟩)
  | open_ e =>
    simp only [cStep, cOpen, cWith]
    cases hi : s.item e.path with
    | none => exact ⟨d, hd, .inl rfl⟩
    | some it =>
      simp only
      split
      · exact ⟨d, hd, .inl rfl⟩
      · split
        · split
          · exact set _ _ (self _)
          · exact set _ _ (self _)
        · exact set _ _ (self _)
  | write k bs =>
    simp only [cStep, cWrite]
    cases hw : s.wr[k]? with
    | none => exact ⟨d, hd, .inl rfl⟩
    | some w =>
      simp only
      refine set _ _ (fun h => .inl ?_)
      rw [h, hd]
      simp only [Option.getD_some]
      split <;> split <;> rfl

theorem cStep_items (op : COp) (s : CSt) : (cStep op s).2.items = s.items := by
  cases op with
  | mkdir e => simp only [cStep, cMkdir, cWith]; repeat' split
               all_goals rfl
  | prealloc e => simp only [cStep, cPrealloc, cWith]; repeat' split
                  all_goals rfl
  | symlink e t => simp only [cStep, cSymlink, cWith]; repeat' split
                   all_goals rfl
  | open_ e => simp only [cStep, cOpen, cWith]; repeat' split
               all_goals rfl
  | write k bs => simp only [cStep, cWrite]; repeat' split
                  all_goals rfl

/-- Successful `Mkdir`s and `Symlink`s stay on record. -/
structure CMade (tr : CTrace) (s : CSt) : Prop where
  mkd : ∀ e n, (COp.mkdir e, (n, none)) ∈ tr → ∃ d, s.done e.path = some d
  sy : ∀ e t n, (COp.symlink e t, (n, none)) ∈ tr → ∃ d it, s.done e.path = some d ∧ s.item e.path = some it ∧ it.link = t ∧ d.link = t

theorem CMade.step {tr s} (h : CMade tr s) (op : COp) : CMade (tr ++ [(op, (cStep op s).1)]) (cStep op s).2 where
  mkd := by
    intro e n hm
    rcases List.mem_append.1 hm with hm | hm
    · obtain ⟨d, hd⟩ := h.mkd e n hm
      obtain ⟨d', h1, _⟩ := cStep_keep op s e.path d hd
      exact ⟨d', h1⟩
    · simp only [List.mem_singleton, Prod.mk.injEq] at hm
      obtain ⟨rfl, hr⟩ := hm
      simp only [cStep, cMkdir, cWith] at hr ⊢
      cases hi : s.item e.path with
      | none => rw [hi] at hr; simp at hr
      | some it =>
        rw [hi] at hr
        simp only at hr ⊢
        split at hr
        · simp at hr
        · rename_i hk
          rw [if_neg hk]
          exact ⟨_, if_pos rfl⟩
  sy := by
    have hitem : ∀ p, (cStep op s).2.item p = s.item p := fun p => by unfold CSt.item; rw [cStep_items]
    intro e t n hm
    rw [hitem]
    rcases List.mem_append.1 hm with hm | hm
    · obtain ⟨d, it, hd, hi, hl, hdl⟩ := h.sy e t n hm
      obtain ⟨d', h1, h2⟩ := cStep_keep op s e.path d hd
      refine ⟨d', it, h1, hi, hl, ?_⟩
      rcases h2 with h2 | ⟨it', h3, h2⟩
      · rw [h2, hdl]
      · rw [hi] at h3; cases h3; rw [h2, hl]
    · simp only [List.mem_singleton, Prod.mk.injEq] at hm
      obtain ⟨rfl, hr⟩ := hm
      simp only [cStep, cSymlink, cWith] at hr ⊢
      cases hi : s.item e.path with
      | none => rw [hi] at hr; simp at hr
      | some it =>
        rw [hi] at hr
        simp only at hr ⊢
        split at hr
        · simp at hr
        · rename_i hk
          rw [if_neg hk]
          split at hr
          · simp at hr
          · rename_i hl
            rw [if_neg hl]
            exact ⟨_, it, if_pos rfl, rfl, by simpa using hl, rfl⟩

theorem cRun_made (s : CSt) : ∀ n, ∀ ops : List COp, ops.length = n → CMade (cRun ops s).1 (cRun ops s).2 := by
  intro n
  induction n with
  | zero =>
    intro ops hl
    have : ops = [] := List.length_eq_zero_iff.1 hl
    subst this
    exact ⟨fun e n h => (by cases h), fun e t n h => (by cases h)⟩
  | succ n ih =>
    intro ops hl
    rcases List.eq_nil_or_concat ops with rfl | ⟨ops', op, rfl⟩
    · simp at hl
    · rw [List.concat_eq_append] at hl ⊢
      obtain ⟨h1, h2⟩ := cRun_snoc ops' op s
      rw [h1, h2]
      exact (ih ops' (by simpa using hl)).step op

theorem CInv.began_nonneg {items tr s} (h : CInv items tr s) {p m} (hb : CBegan tr p m) : 0 ≤ m := by
  obtain ⟨pre, post, k, bs, r, e, rfl, he, _, hm⟩ := hb
  have hs : cOpened (pre ++ (COp.write k bs, r) :: post) = cOpened pre ++ cOpened ((COp.write k bs, r) :: post) := by
    simp [cOpened, List.filterMap_append]
  have hk := (List.getElem?_eq_some_iff.1 he).1
  have hkw : k < s.wr.length := by rw [h.opened, hs, List.length_append]; omega
  obtain ⟨e', a1, _, _, _, _, _, _, a8, _⟩ := h.wr k _ (List.getElem?_eq_getElem hkw)
  rw [hs, List.getElem?_append_left hk, he] at a1
  cases a1
  omega

end Savior
