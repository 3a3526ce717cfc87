import Verif.MakeArchive
import Verif.Props.Harness
import Verif.Ustar
/-!
# Test archives (C76)
-/

namespace Savior

section
variable {enc : List Byte → List Byte} {lead : Nat → List Byte} {tail : List Byte}

/-- Every member listed is one that was made, with the bytes that were stored for it. -/
theorem zipListed_mem : ∀ (ms : List ZMade) (pre : List Byte) (i : Nat), ∀ z ∈ zipListed enc lead pre.length i ms, ∃ m ∈ ms,
    z.name = m.name ∧ z.method = m.method ∧ z.encrypted = false ∧ z.mode = m.readMode ∧ z.opened = (m.data, true) ∧ z.csize = (m.stored enc).length ∧
    ((pre ++ zipWrittenBytes enc lead tail i ms).drop z.dataOff).take z.csize.toNat = m.stored enc := by
  intro ms
  induction ms with
  | nil => intro pre i z hz; cases hz
  | cons m t ih =>
    intro pre i z hz
    unfold zipListed at hz
    rw [List.mem_cons] at hz
    rcases hz with rfl | hz
    · refine ⟨m, List.mem_cons_self, rfl, rfl, rfl, rfl, rfl, rfl, ?_⟩
      unfold zipWrittenBytes
      rw [show pre ++ (lead i ++ m.stored enc ++ zipWrittenBytes enc lead tail (i + 1) t) = (pre ++ lead i) ++ (m.stored enc ++ zipWrittenBytes enc lead tail (i + 1) t) by simp]
      rw [← List.length_append, List.drop_left, Int.toNat_natCast, List.take_left]
    · have h := ih (pre ++ lead i ++ m.stored enc) (i + 1) z (by simpa only [List.length_append] using hz)
      obtain ⟨m', h1, h2⟩ := h
      refine ⟨m', List.mem_cons_of_mem _ h1, ?_⟩
      unfold zipWrittenBytes
      simpa only [List.append_assoc] using h2

theorem zipListed_names : ∀ (ms : List ZMade) (off i : Nat), (zipListed enc lead off i ms).map (·.name) = ms.map (·.name) := by
  intro ms
  induction ms with
  | nil => intro off i; rfl
  | cons m t ih => intro off i; unfold zipListed; simp only [List.map_cons]; rw [ih]

/-- The member made from an item. -/
def ZMade.For (m : ZMade) (it : CItem) : Prop :=
  m.name = it.path ∧ match it.kind with
    | .dir => m.mode = 2 ^ 31 + 0o755 ∧ m.method = .store ∧ m.data = []
    | .file => m.mode = 0o644 ∧ (m.method = .deflate ∨ m.method = .store) ∧ m.data = it.data
    | .symlink => m.mode = 2 ^ 27 + 0o644 ∧ m.method = .store ∧ m.data = it.link

theorem makeZipParts_mem : ∀ (order : List CItem) (c : Bool), ∀ m ∈ makeZipParts c order, ∃ it ∈ order, m.For it := by
  intro order
  induction order with
  | nil => intro c m h; cases h
  | cons it t ih =>
    intro c m hm
    unfold makeZipParts at hm
    have more : ∀ c', m ∈ makeZipParts c' t → ∃ it' ∈ it :: t, m.For it' := by
      intro c' h
      obtain ⟨it', h1, h2⟩ := ih c' m h
      exact ⟨it', List.mem_cons_of_mem _ h1, h2⟩
    have one : m.For it → ∃ it' ∈ it :: t, m.For it' := fun h => ⟨it, List.mem_cons_self, h⟩
    unfold ZMade.For at one
    cases hk : it.kind <;> rw [hk] at hm one <;> simp only [List.mem_cons] at hm
    · rcases hm with rfl | hm
      · exact one ⟨rfl, rfl, rfl, rfl⟩
      · exact more _ hm
    · rcases hm with rfl | hm
      · exact one ⟨rfl, rfl, rfl, rfl⟩
      · exact more _ hm
    · rcases hm with rfl | hm
      · exact one ⟨rfl, rfl, by cases c <;> simp, rfl⟩
      · exact more _ hm

theorem makeZipParts_names : ∀ (order : List CItem) (c : Bool), (makeZipParts c order).map (·.name) = order.map (·.path) := by
  intro order
  induction order with
  | nil => intro c; rfl
  | cons it t ih =>
    intro c
    unfold makeZipParts
    cases it.kind <;> simp only [List.map_cons] <;> rw [ih]

/-- No file or symlink has a name that says it is a directory. -/
def NoSlash (items : List CItem) : Prop := ∀ it ∈ items, it.kind ≠ .dir → it.path.getLast? ≠ some slashByte

theorem ZMade.For.kind {m : ZMade} {it : CItem} (h : m.For it) (hs : it.kind ≠ .dir → it.path.getLast? ≠ some slashByte) :
    (if m.readMode.testBit 31 then Kind.dir else if m.readMode.testBit 27 then .symlink else .file) = it.kind := by
  obtain ⟨hn, h⟩ := h
  unfold ZMade.readMode
  rw [hn]
  cases hk : it.kind <;> rw [hk] at h hs
  · rw [h.1]
    split <;> decide
  · rw [if_neg (hs (by decide)), h.1]
    decide
  · rw [if_neg (hs (by decide)), h.1]
    decide

variable {D : Decomp} {order : List CItem}

/-- Every member of the archive made is what some item says. -/
theorem makeZip_mem (henc : ∀ bs, D.decode D.start (enc bs) true = (bs, true)) (hs : NoSlash order) :
    ∀ z ∈ (makeZip enc lead tail order).files, ∃ it ∈ order, z.name = it.path ∧ (zipFileEntry z).kind = it.kind ∧
      zipNodeOf (makeZip enc lead tail order) D z = it.node ∧ (zipContent (makeZip enc lead tail order) D z).2 = true ∧ z.encrypted = false ∧ 0 ≤ z.csize ∧
      (z.method = .store ∨ z.method = .deflate) ∧ (it.kind = .file → (zipContent (makeZip enc lead tail order) D z).1 = it.data) := by
  intro z hz
  obtain ⟨m, hm, h1, h2, h3, h4, h5, h6, h7⟩ := zipListed_mem (tail := tail) (makeZipParts true order) [] 0 z hz
  obtain ⟨it, hit, hfor⟩ := makeZipParts_mem order true m hm
  have hkind : (zipFileEntry z).kind = it.kind := by
    have := hfor.kind (hs it hit)
    rw [← h4] at this
    exact this
  have hraw : zipRawBytes (makeZip enc lead tail order) z = m.stored enc := h7
  have hmeth : m.method = .store ∨ m.method = .deflate := by
    obtain ⟨_, h⟩ := hfor
    cases hk : it.kind <;> rw [hk] at h
    · exact .inl h.2.1
    · exact .inl h.2.1
    · exact h.2.1.symm
  have hcont : zipContent (makeZip enc lead tail order) D z = (m.data, true) := by
    unfold zipContent
    rw [hraw, h2]
    unfold ZMade.stored
    rcases hmeth with h | h <;> rw [h]
    · rfl
    · exact henc _
  refine ⟨it, hit, h1.trans hfor.1, hkind, ?_, by rw [hcont], h3, by rw [h6]; omega, by rw [h2]; exact hmeth, ?_⟩
  · unfold zipNodeOf CItem.node
    rw [hkind, hcont, h5]
    obtain ⟨_, h⟩ := hfor
    cases hk : it.kind <;> rw [hk] at h
    all_goals simp only [h.2.2]
  · intro hk
    obtain ⟨_, h⟩ := hfor
    rw [hk] at h
    rw [hcont]
    exact h.2.2

theorem makeZip_names : (makeZip enc lead tail order).files.map (·.name) = order.map (·.path) := by
  show (zipListed enc lead 0 0 (makeZipParts true order)).map (·.name) = _
  rw [zipListed_names, makeZipParts_names]

theorem makeZip_distinct (hnd : order.Pairwise (fun a b => a.path ≠ b.path)) : (makeZip enc lead tail order).files.Pairwise (fun a b => a.name ≠ b.name) := by
  rw [← List.pairwise_map, makeZip_names, List.pairwise_map]
  exact hnd

/-- Names being distinct, a path is what its only member says. -/
theorem zipNode_of_member {A : Archive} (hdist : A.files.Pairwise (fun a b => a.name ≠ b.name)) {z : ZFile} (hz : z ∈ A.files) : zipNode A D z.name = some (zipNodeOf A D z) := by
  unfold zipNode
  have hmem : z ∈ A.files.filter fun zf => zf.name = z.name := List.mem_filter.2 ⟨hz, by simp⟩
  rcases List.eq_nil_or_concat (A.files.filter fun zf => zf.name = z.name) with h0 | ⟨l, b, h0⟩
  · rw [h0] at hmem; cases hmem
  · have hb : b ∈ A.files.filter fun zf => zf.name = z.name := by rw [h0]; simp
    obtain ⟨hb1, hb2⟩ := List.mem_filter.1 hb
    obtain rfl := names_unique hdist z hz b hb1 (by simpa using hb2)
    rw [h0]
    simp

theorem path_unique {items : List CItem} (hnd : items.Pairwise (fun a b => a.path ≠ b.path)) {a b : CItem} (ha : a ∈ items) (hb : b ∈ items) (h : a.path = b.path) : a = b := by
  have h1 := find_path hnd ha
  rw [h, find_path hnd hb] at h1
  exact (Option.some.inj h1).symm

theorem distinct_perm {items order : List CItem} (hp : order.Perm items) (hnd : items.Pairwise (fun a b => a.path ≠ b.path)) : order.Pairwise (fun a b => a.path ≠ b.path) :=
  hp.symm.pairwise hnd (fun h => h.symm)

/-- **C76** (zip). Whatever the order the items are visited in and whatever surrounds the members' data: if no two items have the same
path and no file or symlink has a name ending in "/", the archive made from a sink's items has, at each item's path, what that item says; and
has nothing else. -/
theorem C76_zip (henc : ∀ bs, D.decode D.start (enc bs) true = (bs, true)) (items : List CItem) (hnd : items.Pairwise (fun a b => a.path ≠ b.path)) (hs : NoSlash items)
    (hp : order.Perm items) :
    (∀ it ∈ items, zipNode (makeZip enc lead tail order) D it.path = some it.node) ∧
    ((makeZip enc lead tail order).files.map (·.name)).Perm (items.map (·.path)) ∧
    ∀ p, (∀ it ∈ items, it.path ≠ p) → zipNode (makeZip enc lead tail order) D p = none := by
  have hnd' := distinct_perm hp hnd
  have hs' : NoSlash order := fun it hit => hs it (hp.mem_iff.1 hit)
  refine ⟨fun it hit => ?_, by rw [makeZip_names]; exact hp.map _, fun p hno => ?_⟩
  · have hin : it.path ∈ (makeZip enc lead tail order).files.map (·.name) := by
      rw [makeZip_names]
      exact List.mem_map_of_mem (hp.mem_iff.2 hit)
    obtain ⟨z, hz, hn⟩ := List.mem_map.1 hin
    obtain ⟨it', h1, h2, _, h3, _⟩ := makeZip_mem henc hs' z hz
    obtain rfl := path_unique hnd (hp.mem_iff.1 h1) hit (h2.symm.trans hn)
    rw [← hn, zipNode_of_member (makeZip_distinct hnd') hz, h3]
  · unfold zipNode
    rw [List.filter_eq_nil_iff.2]
    · rfl
    · intro z hz
      obtain ⟨it, h1, h2, _⟩ := makeZip_mem henc hs' z hz
      simp only [decide_eq_true_eq]
      rw [h2]
      exact hno it (hp.mem_iff.1 h1)

theorem count_deflated : ∀ (order : List CItem) (off i : Nat) (c : Bool),
    ((zipListed enc lead off i (makeZipParts c order)).filter (·.method = .deflate)).length =
      ((order.filter (·.kind = .file)).length + (if c then 1 else 0)) / 2 := by
  intro order
  induction order with
  | nil => intro off i c; cases c <;> rfl
  | cons it t ih =>
    intro off i c
    unfold makeZipParts
    cases hk : it.kind <;> cases c <;> simp [zipListed, hk, ih] <;> omega

/-- **C76** (both ways of storing a file are exercised): half of the files, rounded up, are deflated; no other member is; everything
else is stored. -/
theorem C76_zip_methods (henc : ∀ bs, D.decode D.start (enc bs) true = (bs, true)) (items : List CItem) (hs : NoSlash items) (hp : order.Perm items) :
    ((makeZip enc lead tail order).files.filter (·.method = .deflate)).length = ((items.filter (·.kind = .file)).length + 1) / 2 ∧
    (∀ z ∈ (makeZip enc lead tail order).files, z.method = .store ∨ z.method = .deflate) := by
  refine ⟨?_, fun z hz => ?_⟩
  · rw [← (hp.filter _).length_eq]
    exact count_deflated order 0 0 true
  · obtain ⟨it, _, _, _, _, _, _, _, h, _⟩ := makeZip_mem henc (fun it hit => hs it (hp.mem_iff.1 hit)) z hz
    exact h

/-- **C76** (zip, the whole test). Making an archive from a sink with distinct paths and non-empty files and then testing extraction against
that sink passes when nothing fails — unless the test gives up because it was stopped too often, which does not happen if there are few bytes. -/
theorem C76_zip_passes (hlaw : D.Law) (hexact : D.Exact) (hsave : ∀ st, D.canSave st = true → D.saveOK st = true) (henc : ∀ bs, D.decode D.start (enc bs) true = (bs, true))
    (sink : CSt) (hnd : sink.items.Pairwise (fun a b => a.path ≠ b.path)) (hs : NoSlash sink.items) (hne : ∀ it ∈ sink.items, it.kind = .file → it.data ≠ [])
    (hp : order.Perm sink.items) {F : Nat} (hF : ∀ z ∈ (makeZip enc lead tail order).files, zipBudget (makeZip enc lead tail order) D z ≤ F)
    (envs : Nat → ZEnv) (hh : ∀ n, (envs n).Honest (makeZip enc lead tail order)) (he : ∀ n, (envs n).Good (makeZip enc lead tail order)) (th : Int) (Q : Asker) (x : Q.St) :
    (harness (zipTestRun (makeZip enc lead tail order) envs D F th Q) sink x = .pass ∨
      harness (zipTestRun (makeZip enc lead tail order) envs D F th Q) sink x = .tooMany) ∧
    (zipPositions (makeZip enc lead tail order) D ≤ 128 → harness (zipTestRun (makeZip enc lead tail order) envs D F th Q) sink x = .pass) := by
  have hs' : NoSlash order := fun it hit => hs it (hp.mem_iff.1 hit)
  have hm := makeZip_mem (enc := enc) (lead := lead) (tail := tail) henc hs'
  refine C70_zip_correct_passes ⟨hlaw, fun z hz => ?_, hF⟩ (fun z hz => ?_) ⟨fun z hz => ?_, hexact, hsave⟩ sink hnd (makeZip_distinct (distinct_perm hp hnd)) (fun z hz hk => ?_)
    (C76_zip henc sink.items hnd hs hp).1 (fun z hz => ?_) envs hh he th Q x
  · obtain ⟨it, _, _, _, _, _, _, h, _⟩ := hm z hz
    exact h
  · obtain ⟨it, _, _, _, _, _, h, _⟩ := hm z hz
    exact h
  · obtain ⟨it, _, _, _, _, h, _⟩ := hm z hz
    exact h
  · obtain ⟨it, h1, _, h2, _, _, _, _, h3, h4⟩ := hm z hz
    refine ⟨h3, ?_⟩
    rw [h4 (h2 ▸ hk)]
    exact hne it (hp.mem_iff.1 h1) (h2 ▸ hk)
  · obtain ⟨it, h1, h2, _⟩ := hm z hz
    exact ⟨it, hp.mem_iff.1 h1, h2.symm⟩

end

section
variable {order : List CItem}

theorem makeTar_name : ∀ m ∈ makeTarMembers order, ∃ it ∈ order, m.1.name = it.path ∧ m.1.typ ≠ .other ∧ tarNodeOf m = it.node ∧ (m.1.typ = .reg → it.kind = .file ∧ m.2 = it.data) := by
  intro m hm
  unfold makeTarMembers at hm
  obtain ⟨it, h1, h2⟩ := List.mem_map.1 hm
  refine ⟨it, h1, ?_⟩
  unfold CItem.node
  cases hk : it.kind <;> rw [hk] at h2 <;> subst h2
  · exact ⟨rfl, nofun, rfl, nofun⟩
  · exact ⟨rfl, nofun, rfl, nofun⟩
  · exact ⟨rfl, nofun, rfl, fun _ => ⟨rfl, rfl⟩⟩

theorem makeTar_names : (makeTarMembers order).map (·.1.name) = order.map (·.path) := by
  unfold makeTarMembers
  rw [List.map_map]
  refine List.map_congr_left fun it _ => ?_
  simp only [Function.comp]
  cases it.kind <;> rfl

theorem makeTar_distinct (hnd : order.Pairwise (fun a b => a.path ≠ b.path)) : DistinctNames (makeTarMembers order) := by
  unfold DistinctNames
  refine List.Pairwise.filter _ ?_
  rw [← List.pairwise_map (f := fun m : THdr × List Byte => m.1.name) (R := (· ≠ ·)), makeTar_names, List.pairwise_map]
  exact hnd

/-- **C76** (tar). The same for the members handed to the tar writer. -/
theorem C76_tar (items : List CItem) (hnd : items.Pairwise (fun a b => a.path ≠ b.path)) (hp : order.Perm items) :
    (∀ it ∈ items, tarNode (makeTarMembers order) it.path = some it.node) ∧
    ((makeTarMembers order).map (·.1.name)).Perm (items.map (·.path)) ∧
    ∀ p, (∀ it ∈ items, it.path ≠ p) → tarNode (makeTarMembers order) p = none := by
  have hd := makeTar_distinct (distinct_perm hp hnd)
  refine ⟨fun it hit => ?_, by rw [makeTar_names]; exact hp.map _, fun p hno => ?_⟩
  · have hin : it.path ∈ (makeTarMembers order).map (·.1.name) := by
      rw [makeTar_names]
      exact List.mem_map_of_mem (hp.mem_iff.2 hit)
    obtain ⟨m, hm, hn⟩ := List.mem_map.1 hin
    obtain ⟨it', h1, h2, h3, h4, _⟩ := makeTar_name m hm
    obtain rfl := path_unique hnd (hp.mem_iff.1 h1) hit (h2.symm.trans hn)
    rw [← hn, hd.node hm h3, h4]
  · cases h : tarNode (makeTarMembers order) p with
    | none => rfl
    | some n =>
      obtain ⟨m, h1, h2, _⟩ := tarNode_member h
      obtain ⟨it, h3, h4, _⟩ := makeTar_name m h1
      exact absurd (h4.symm.trans h2) (hno it (hp.mem_iff.1 h3))

/-- **C76** (tar, the whole test). `Y` is what the tar writer made of the members. -/
theorem C76_tar_passes {T : TarFmt} {Ck : Ckpt → Nat → Prop} {F : Nat} {Y : List Byte} (hT : T.Law) (hX : T.Exact) (hall : TarHas T true Y (makeTarMembers order)) (hF : Y.length + 3 ≤ F)
    (sink : CSt) (hnd : sink.items.Pairwise (fun a b => a.path ≠ b.path)) (hne : ∀ it ∈ sink.items, it.kind = .file → it.data ≠ []) (hp : order.Perm sink.items)
    (X : TarSrc Y true Ck F) (hh : X.Healthy) (hS : X.S.Conduit) (hi : X.S.Indifferent) (pr : Ckpt → Int × Int) (srcs : Nat → X.S.St) (hsrc : ∀ n, X.L.Good (srcs n))
    (hq : ∀ n, X.L.Quiet (srcs n)) (th : Int) (Q : Asker) (x : Q.St) :
    (harness (tarTestRun T pr F srcs th Q) sink x = .pass ∨ harness (tarTestRun T pr F srcs th Q) sink x = .tooMany) ∧
    (Y.length ≤ 128 → harness (tarTestRun T pr F srcs th Q) sink x = .pass) := by
  refine C70_tar_correct_passes hT hX hall hF sink hnd (makeTar_distinct (distinct_perm hp hnd)) (fun m hm ht => ?_) (C76_tar sink.items hnd hp).1 (fun m hm _ => ?_)
    X hh hS hi pr srcs hsrc hq th Q x
  · obtain ⟨it, h1, _, _, _, h2⟩ := makeTar_name m hm
    rw [(h2 ht).2]
    exact hne it (hp.mem_iff.1 h1) (h2 ht).1
  · obtain ⟨it, h1, h2, _⟩ := makeTar_name m hm
    exact ⟨it, hp.mem_iff.1 h1, h2.symm⟩

/-- An item that fits into a ustar header. -/
structure CItem.FitsUstar (it : CItem) : Prop where
  path_len : it.path.length ≤ 100
  path_nul : ∀ b ∈ it.path, b ≠ 0
  link_len : it.link.length ≤ 100
  link_nul : ∀ b ∈ it.link, b ≠ 0
  size : it.data.length < 8 ^ 11

theorem makeTar_ustar (h : ∀ it ∈ order, it.FitsUstar) : ∀ m ∈ makeTarMembers order, UstarOK m := by
  intro m hm
  unfold makeTarMembers at hm
  obtain ⟨it, h1, h2⟩ := List.mem_map.1 hm
  obtain ⟨a, b, c, d, e⟩ := h it h1
  cases hk : it.kind <;> rw [hk] at h2 <;> subst h2
  · exact ⟨a, b, by simp, by simp, by show (0o755 : Nat) < _; decide, by simp, rfl, nofun, fun _ => rfl⟩
  · exact ⟨a, b, c, d, by show (0o644 : Nat) < _; decide, by simp, rfl, nofun, fun _ => rfl⟩
  · exact ⟨a, b, by simp, by simp, by show (0o644 : Nat) < _; decide, e, rfl, nofun, fun h => absurd rfl h⟩

/-- **C76** (tar, the whole test, with the ustar format): no assumption about the tar package is left. -/
theorem C76_ustar_passes (eg : Bool) {Ck : Ckpt → Nat → Prop} {F : Nat} (hF : (ustarWrite (makeTarMembers order)).length + 3 ≤ F)
    (sink : CSt) (hnd : sink.items.Pairwise (fun a b => a.path ≠ b.path)) (hne : ∀ it ∈ sink.items, it.kind = .file → it.data ≠ []) (hfit : ∀ it ∈ sink.items, it.FitsUstar)
    (hp : order.Perm sink.items) (X : TarSrc (ustarWrite (makeTarMembers order)) true Ck F) (hh : X.Healthy) (hS : X.S.Conduit) (hi : X.S.Indifferent) (pr : Ckpt → Int × Int)
    (srcs : Nat → X.S.St) (hsrc : ∀ n, X.L.Good (srcs n)) (hq : ∀ n, X.L.Quiet (srcs n)) (th : Int) (Q : Asker) (x : Q.St) :
    harness (tarTestRun (ustar eg) pr F srcs th Q) sink x = .pass ∨ harness (tarTestRun (ustar eg) pr F srcs th Q) sink x = .tooMany :=
  (C76_tar_passes (ustar_law eg) (ustar_exact eg) (ustar_has _ (makeTar_ustar fun it hit => hfit it (hp.mem_iff.1 hit))) hF sink hnd hne hp X hh hS hi pr srcs hsrc hq th Q x).1

end

/-! ## `MakeTestSink` -/

/-- The number a string of digits stands for. -/
def undecimal (s : Str) : Nat := s.foldl (fun n b => 10 * n + (b.toNat - 48)) 0

theorem undecimal_decimal (n : Nat) : undecimal (decimal n) = n := by
  induction n using Nat.strongRecOn with
  | _ n ih =>
    unfold decimal
    split
    · rename_i h
      simp only [undecimal, List.foldl_cons, List.foldl_nil, UInt8.toNat_ofNat']
      omega
    · rename_i h
      have h1 := ih (n / 10) (by omega)
      unfold undecimal at h1 ⊢
      rw [List.foldl_append, h1]
      simp only [List.foldl_cons, List.foldl_nil, UInt8.toNat_ofNat']
      omega

theorem decimal_inj {a b : Nat} (h : decimal a = decimal b) : a = b := by
  rw [← undecimal_decimal a, h, undecimal_decimal]

theorem decimal_last (n : Nat) : ∃ k, k < 10 ∧ (decimal n).getLast? = some (UInt8.ofNat (48 + k)) := by
  unfold decimal
  split
  · exact ⟨n, by assumption, rfl⟩
  · exact ⟨n % 10, by omega, by rw [List.getLast?_append]; rfl⟩

/-- The item made in round `i`: its path is some prefix ending in "-" without another, and the number. -/
theorem testItem_path (rng : Nat → Nat) (gen : Nat → List Byte) (i tick : Nat) : ∃ w ∈ [asciiStr ['s', 'y', 'm', 'l', 'i', 'n', 'k', '-'], asciiStr ['d', 'i', 'r', '-'], asciiStr ['f', 'i', 'l', 'e', '-']],
    (testItem rng gen i tick).1.path = w ++ decimal i := by
  unfold testItem
  split
  · exact ⟨_, by simp, rfl⟩
  · split
    · exact ⟨_, List.mem_cons_of_mem _ List.mem_cons_self, rfl⟩
    · exact ⟨_, List.mem_cons_of_mem _ (List.mem_cons_of_mem _ List.mem_cons_self), rfl⟩

theorem testPaths_ne {i j : Nat} (h : i ≠ j) {w w' : Str} (hw : w ∈ [asciiStr ['s', 'y', 'm', 'l', 'i', 'n', 'k', '-'], asciiStr ['d', 'i', 'r', '-'], asciiStr ['f', 'i', 'l', 'e', '-']])
    (hw' : w' ∈ [asciiStr ['s', 'y', 'm', 'l', 'i', 'n', 'k', '-'], asciiStr ['d', 'i', 'r', '-'], asciiStr ['f', 'i', 'l', 'e', '-']]) : w ++ decimal i ≠ w' ++ decimal j := by
  intro he
  have hsame : w = w' := by
    simp only [List.mem_cons, List.not_mem_nil, or_false] at hw hw'
    rcases hw with rfl | rfl | rfl <;> rcases hw' with rfl | rfl | rfl <;> first | rfl | (simp [asciiStr] at he)
  subst hsame
  exact h (decimal_inj (List.append_cancel_left he))

theorem testItems_from (rng : Nat → Nat) (gen : Nat → List Byte) : ∀ n i tick, ∀ it ∈ testItems rng gen n i tick, ∃ j t, i ≤ j ∧ it = (testItem rng gen j t).1 := by
  intro n
  induction n with
  | zero => intro i tick it h; cases h
  | succ n ih =>
    intro i tick it h
    unfold testItems at h
    rw [List.mem_cons] at h
    rcases h with rfl | h
    · exact ⟨i, tick, Nat.le_refl _, rfl⟩
    · obtain ⟨j, t, h1, h2⟩ := ih _ _ _ h
      exact ⟨j, t, by omega, h2⟩

/-- **C76** (the test sink). Whatever the random numbers: there are as many items as asked for, with different paths, none of which
ends in "/"; a file has fewer than 4 MiB. -/
theorem C76_test_sink (rng : Nat → Nat) (gen : Nat → List Byte) (hgen : ∀ n, (gen n).length = n) (n : Nat) :
    (makeTestSink rng gen n).items.length = n ∧ (makeTestSink rng gen n).items.Pairwise (fun a b => a.path ≠ b.path) ∧ NoSlash (makeTestSink rng gen n).items ∧
    ∀ it ∈ (makeTestSink rng gen n).items, it.data.length < 4194304 := by
  refine ⟨?_, ?_, ?_, ?_⟩
  · have : ∀ n i t, (testItems rng gen n i t).length = n := by
      intro n
      induction n with
      | zero => intro i t; rfl
      | succ n ih => intro i t; unfold testItems; rw [List.length_cons, ih]
    exact this n 0 0
  · have : ∀ n i t, (testItems rng gen n i t).Pairwise (fun a b => a.path ≠ b.path) := by
      intro n
      induction n with
      | zero => intro i t; exact List.Pairwise.nil
      | succ n ih =>
        intro i t
        unfold testItems
        refine List.pairwise_cons.2 ⟨fun it h => ?_, ih _ _⟩
        obtain ⟨j, t', h1, rfl⟩ := testItems_from rng gen _ _ _ it h
        obtain ⟨w, hw, e⟩ := testItem_path rng gen i t
        obtain ⟨w', hw', e'⟩ := testItem_path rng gen j t'
        rw [e, e']
        exact testPaths_ne (by omega) hw hw'
    exact this n 0 0
  · intro it h _ hl
    obtain ⟨j, t, _, rfl⟩ := testItems_from rng gen _ _ _ it h
    obtain ⟨w, _, e⟩ := testItem_path rng gen j t
    obtain ⟨k, hk, hd⟩ := decimal_last j
    rw [e, List.getLast?_append, hd] at hl
    have h2 : UInt8.ofNat (48 + k) = slashByte := by simpa using hl
    have h3 := congrArg UInt8.toNat h2
    rw [UInt8.toNat_ofNat'] at h3
    have h4 : slashByte.toNat = 47 := rfl
    omega
  · intro it h
    obtain ⟨j, t, _, rfl⟩ := testItems_from rng gen _ _ _ it h
    unfold testItem
    split
    · simp
    · split
      · simp
      · rw [hgen]
        omega

/-- **C76** is false of what the names suggest: of the items called "symlink-…" none is a symlink, so tests made from this sink never
extract one. -/
theorem C76_false_symlinks (rng : Nat → Nat) (gen : Nat → List Byte) (n : Nat) : ∀ it ∈ (makeTestSink rng gen n).items, it.kind ≠ .symlink := by
  intro it h
  obtain ⟨j, t, _, rfl⟩ := testItems_from rng gen _ _ _ it h
  unfold testItem
  split
  · nofun
  · split <;> nofun

/-! ## Non-vacuity -/

/-- An encoder for the toy decompressor. -/
def toyEnc : List Byte → List Byte
  | [] => [0]
  | b :: t => 1 :: (b - 1) :: toyEnc t

theorem toyEnc_ok (bs : List Byte) : (toy false false).decode (toy false false).start (toyEnc bs) true = (bs, true) := by
  show (toy false false).decode (⟨0, false⟩ : ToySt) (toyEnc bs) true = (bs, true)
  induction bs with
  | nil => rfl
  | cons b t ih =>
    have h1 : (toy false false).decode (⟨0, false⟩ : ToySt) (toyEnc (b :: t)) true =
      ((b - 1 + 1) :: ((toy false false).decode (⟨0, false⟩ : ToySt) (toyEnc t) true).1, ((toy false false).decode (⟨0, false⟩ : ToySt) (toyEnc t) true).2) := rfl
    rw [h1, ih]
    simp

/-- A sink with two files, a directory and a symlink. -/
def makeItems : List CItem := [⟨[100], .dir, [], []⟩, ⟨[97], .file, [], [10, 20, 30]⟩, ⟨[108], .symlink, [97], []⟩, ⟨[98], .file, [], [5, 6]⟩]

/-- The archive made when they are visited backwards. -/
def madeZip : Archive := makeZip toyEnc (fun i => List.replicate (30 + i) 80) [80, 75, 5, 6] makeItems.reverse

theorem made_perm : makeItems.reverse.Perm makeItems := makeItems.reverse_perm
theorem made_noSlash : NoSlash makeItems := by unfold NoSlash; decide

example : (∀ it ∈ makeItems, zipNode madeZip (toy false false) it.path = some it.node) := (C76_zip toyEnc_ok makeItems (by decide) made_noSlash made_perm).1

/-- The one visited first is deflated, the other stored. -/
example : madeZip.files.map (fun z => (z.name, z.method)) = [([98], .deflate), ([108], .store), ([97], .store), ([100], .store)] := by rfl
example : (madeZip.files.filter (·.method = .deflate)).length = 1 := (C76_zip_methods toyEnc_ok makeItems made_noSlash made_perm).1

def madeEnv : ZEnv where
  sched := toyEnv.sched
  dataOff _ := none
  opens i := match madeZip.files[i]? with | some z => .ok ([z.opened.1], none) | none => .error .corrupt

theorem madeEnv_honest : madeEnv.Honest madeZip := by
  intro i z hz chunks h
  simp only [madeEnv, hz] at h
  injection h with h
  injection h with h h'
  rw [← h]
  simp

theorem madeEnv_good : madeEnv.Good madeZip where
  noFault := toy_good.noFault
  lazy := toy_good.lazy
  dataOff _ := rfl
  opens i h := by
    refine ⟨[madeZip.files[i].opened.1], ?_⟩
    simp only [madeEnv]
    rw [List.getElem?_eq_getElem h]

/-- A test stopped at every opportunity. -/
example : harness (zipTestRun madeZip (fun _ => madeEnv) (toy false false) 100 0 yesAsker) (cNew makeItems) () = .pass :=
  (C76_zip_passes (toy_law false false) toy_exact (fun _ _ => rfl) toyEnc_ok (cNew makeItems) (by decide) made_noSlash (by decide) made_perm (by decide)
    (fun _ => madeEnv) (fun _ => madeEnv_honest) (fun _ => madeEnv_good) 0 yesAsker ()).2 (by decide)

theorem made_fits : ∀ it ∈ makeItems, it.FitsUstar := by
  intro it hit
  simp only [makeItems, List.mem_cons, List.not_mem_nil, or_false] at hit
  rcases hit with rfl | rfl | rfl | rfl <;> exact ⟨by decide, by decide, by decide, by decide, by decide⟩

/-- The tar archive made from these items, as a stream. -/
def madeTar : List Byte := ustarWrite (makeTarMembers makeItems.reverse)

theorem madeTar_has : TarHas (ustar true) true madeTar (makeTarMembers makeItems.reverse) :=
  ustar_has _ (makeTar_ustar fun it hit => made_fits it (made_perm.mem_iff.1 hit))

theorem madeTar_length : madeTar.length = 4096 := by decide +kernel

/-- A test of a ustar archive, delivered byte by byte. -/
def madeTarTest : Verdict :=
  harness (tarTestRun (S := seekM) (ustar true) (fun _ => (0, 1)) 10000 (fun _ => Seek.newWithSize ⟨madeTar, 0, fun _ => ⟨0, false, none⟩, 0⟩ madeTar.length) 0 yesAsker) (cNew makeItems) ()

theorem madeTarTest_ok : madeTarTest = .pass ∨ madeTarTest = .tooMany := by
  have hb : 2 * madeTar.length + 3 ≤ 10000 := by rw [madeTar_length]; decide
  have hl : (plainGeo madeTar).stream.length + 3 ≤ 10000 := by rw [plain_stream, madeTar_length]; decide
  exact (C76_tar_passes (ustar_law true) (ustar_exact true) (by rw [plain_stream]; exact madeTar_has) hl (cNew makeItems) (by decide) (by decide) made_perm
    (plainSrc madeTar 10000 hb) ⟨fun _ => rfl, trivial⟩ seek_conduit seek_indifferent (fun _ => (0, 1)) _ (fun _ => (plainSrc madeTar 10000 hb).good) (fun _ => rfl) 0 yesAsker ()).1

/-- A file whose name ends in "/" comes out as a directory. -/
theorem C76_false_slash : ∃ it : CItem, it.kind = .file ∧ it.data ≠ [] ∧
    zipNode (makeZip toyEnc (fun _ => []) [] [it]) (toy false false) it.path = some .dir :=
  ⟨⟨[97, 47], .file, [], [1]⟩, rfl, by decide, by rfl⟩

example : (testItems (fun n => 7 * n) (fun n => List.replicate n 0) 3 0 0).map (fun it => (it.kind, it.data.length)) = [(.dir, 0), (.dir, 0), (.file, 28)] := by rfl

end Savior
