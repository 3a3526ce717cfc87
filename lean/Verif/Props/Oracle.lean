import Verif.CheckZip
import Verif.Props.Checker
import Verif.Props.TarFaults
/-!
# The checking sink as an oracle for extractions (C67)
-/

namespace Savior

theorem checkFits (items : List CItem) (A : Archive) : (checkPath items).FitsAll A := fun _ _ => trivial

theorem cNew_ok (A : Archive) (D : Decomp) (items : List CItem) : CheckOK A D items [] (cNew items) :=
  ⟨⟨⟨rfl, fun _ h => (by cases h)⟩, 0, 0, UpTo.nil .., HoldsFrom.nothing ..⟩, ⟨rfl, fun _ _ h => (by cases h), fun _ _ h => (by cases h)⟩, fun _ h => (by cases h)⟩

/-- What a node of the checking sink says of its item. -/
theorem checkNode_admits {s : CSt} {items : List CItem} (hi : s.items = items) {p : Str} {n : PNode} (h : checkNode s p = some n) :
    ∃ it, items.find? (·.path = p) = some it ∧ it.admits n := by
  unfold checkNode at h
  cases hit : s.item p with
  | none => rw [hit] at h; cases h
  | some it =>
    rw [hit] at h
    simp only at h
    refine ⟨it, by rw [← hi]; exact hit, ?_⟩
    cases hk : it.kind with
    | dir =>
      rw [hk] at h
      simp only [Option.map_eq_some_iff] at h
      obtain ⟨d, _, rfl⟩ := h
      exact hk
    | symlink =>
      rw [hk] at h
      simp only [Option.bind_eq_some_iff] at h
      obtain ⟨d, _, h⟩ := h
      split at h
      · rename_i he
        obtain rfl := Option.some.inj h
        exact ⟨hk, he.symm⟩
      · cases h
    | file =>
      rw [hk] at h
      simp only [Option.map_eq_some_iff] at h
      obtain ⟨w, _, rfl⟩ := h
      exact ⟨hk, List.take_prefix _ _⟩

/-- **C67** (what was accepted is right). After any number of extractions of a zip archive into a checking sink, ended in
whatever way and each resumed from any checkpoint saved before, one that succeeds means: for every path of the archive the sink
has an item, of the right kind, with the right link target, and whose content begins with the member's content. -/
theorem C67_zip_accepted {A : Archive} {D : Decomp} {F : Nat} (hwf : ZipWF A D F) (items : List CItem)
    (hist : List ECkpt) (k : CSt) (hchain : ZipAttempts A D F checkSink (cNew items) hist k) (ck : Option ECkpt) (before : List ECkpt) (hck : ChooseCk hist ck before)
    (env : ZEnv) (hh : env.Honest A) (V : SaveCons) (u : V.St) (res : List Entry) (hok : (zipResume A env D F checkSink V ck k u).1 = .ok res)
    (p : Str) (n : PNode) (hn : zipNode A D p = some n) : ∃ it, items.find? (·.path = p) = some it ∧ it.admits n := by
  obtain ⟨_, g2, g3, _⟩ := zipResume_check hwf env hh (checkFits items A) hist before ck k u (zipAttempts_check hwf (checkFits items A) (cNew_ok A D items) hchain) hck
  exact checkNode_admits g2.1.items (holdsTo_zipNode (g3 res hok).1 p n rfl hn)

/-- **C67** (what was accepted is right), for tar streams. -/
theorem C67_tar_accepted {Y : List Byte} {clean : Bool} {Ck : Ckpt → Nat → Prop} {F : Nat} {T : TarFmt} (hT : T.Law) {all : List (THdr × List Byte)}
    (hall : TarHas T clean Y all) (items : List CItem) (hist : List ECkpt) (k : CSt) (hchain : TarAttempts Y clean Ck F T checkSink (cNew items) hist k)
    (ck : Option ECkpt) (before : List ECkpt) (hck : ChooseCk hist ck before) (X : TarSrc Y clean Ck F) (pr : Ckpt → Int × Int) (V : SaveCons) (u : V.St)
    (res : List Entry) (hok : (tarRun X T pr checkSink V ck k u).1 = .ok res)
    (p : Str) (n : PNode) (hn : tarNode all p = some n) : ∃ it, items.find? (·.path = p) = some it ∧ it.admits n := by
  have hok0 := tarAttempts_ok hT hall (checkPath items) (fun _ _ _ => trivial) ⟨rfl, fun _ h => by cases h⟩ hchain
  have h := (C61_tar_failures_harmless hT hall (checkPath items) (fun _ _ _ => trivial) (cNew items) ⟨rfl, fun _ h => by cases h⟩ hist k hchain ck before hck X pr V u res hok).1 p n rfl hn
  exact checkNode_admits (tarRun_path (V := V) hT hall (checkPath items) (fun _ _ _ => trivial) X pr _ _ _ _ u hok0 hck).1.1.1 h

section
variable {A : Archive} {D : Decomp} {F : Nat}

/-- The verdict on one item. -/
theorem verdict_item {items : List CItem} {s : CSt} (hnd : items.Pairwise (fun a b => a.path ≠ b.path)) (hs : CSane A D items s)
    (hd : HoldsFrom 0 A D (fun _ => true) (checkNode s) A.files.length 0)
    (hr : ∀ z ∈ A.files, (zipFileEntry z).kind = .file → CReach s z.name (zipContent A D z).1.length)
    (it : CItem) (hit : it ∈ items) (z : ZFile) (hz : z ∈ A.files) (hn : z.name = it.path) (hu : ∀ z' ∈ A.files, z'.name = it.path → z' = z)
    (hf : (zipFileEntry z).kind = .file → z.resumable ∧ (zipContent A D z).1 ≠ []) :
    cItemOK s it = true ↔ zipNodeOf A D z = it.node := by
  have hfind : s.item it.path = some it := by
    unfold CSt.item
    rw [hs.items]
    exact find_path hnd hit
  have hzn : zipNode A D it.path = some (zipNodeOf A D z) := by
    unfold zipNode
    have hmem : z ∈ A.files.filter fun zf => zf.name = it.path := List.mem_filter.2 ⟨hz, by simpa using hn⟩
    rcases List.eq_nil_or_concat (A.files.filter fun zf => zf.name = it.path) with h0 | ⟨l, b, h0⟩
    · rw [h0] at hmem; cases hmem
    · have hb : b ∈ A.files.filter fun zf => zf.name = it.path := by rw [h0]; simp
      obtain ⟨hb1, hb2⟩ := List.mem_filter.1 hb
      have : b = z := hu b hb1 (by simpa using hb2)
      subst this
      rw [h0]
      simp
  have hnode := holdsTo_zipNode hd it.path _ rfl hzn
  unfold checkNode at hnode
  rw [hfind] at hnode
  simp only at hnode
  unfold cItemOK CItem.node
  cases hk : it.kind with
  | dir =>
    rw [hk] at hnode
    simp only [Option.map_eq_some_iff] at hnode
    obtain ⟨d, h1, h2⟩ := hnode
    rw [h1]
    simp [h2]
  | symlink =>
    rw [hk] at hnode
    simp only [Option.bind_eq_some_iff] at hnode
    obtain ⟨d, h1, h2⟩ := hnode
    rw [h1]
    split at h2
    · rename_i he
      have h2 := Option.some.inj h2
      rw [← h2]
      simp [he]
    · cases h2
  | file =>
    rw [hk] at hnode
    simp only [Option.map_eq_some_iff] at hnode
    obtain ⟨w, h1, h2⟩ := hnode
    have hkz : (zipFileEntry z).kind = .file := by
      unfold zipNodeOf at h2
      cases hkz : (zipFileEntry z).kind <;> rw [hkz] at h2 <;> first | rfl | cases h2
    obtain ⟨hres, hne⟩ := hf hkz
    have hnz : zipNodeOf A D z = .file (zipContent A D z).1 := by unfold zipNodeOf; rw [hkz]
    have hpre : (zipContent A D z).1 <+: it.data := by
      rw [hnz] at h2
      injection h2 with h2
      rw [← h2]; exact List.take_prefix _ _
    have hlen : 0 < (zipContent A D z).1.length := List.length_pos_iff.2 hne
    rcases hr z hz hkz with h0 | ⟨d, g1, g2, g3⟩
    · omega
    rw [hn] at g1
    rw [g1]
    obtain ⟨l1, l2⟩ := hs.low _ d g1
    have l3 := l2 it hfind
    obtain ⟨z', m1, m2, m3⟩ := hs.mem _ d g1
    obtain rfl := hu z' m1 m2
    have l4 := m3 hkz hres
    simp only [decide_eq_true_eq]
    rw [hnz]
    constructor
    · rintro ⟨_, h4⟩
      rw [List.IsPrefix.eq_of_length hpre (by omega)]
    · intro h4
      injection h4 with h4
      rw [h4] at g3
      exact ⟨by omega, by omega⟩

/-- Distinct names belong to one member each. -/
theorem names_unique (hdist : A.files.Pairwise (fun a b => a.name ≠ b.name)) : ∀ z ∈ A.files, ∀ z' ∈ A.files, z'.name = z.name → z' = z := by
  intro z hz z' hz' hn
  obtain ⟨i, hi⟩ := List.getElem?_of_mem hz
  obtain ⟨j, hj⟩ := List.getElem?_of_mem hz'
  rw [List.pairwise_iff_getElem] at hdist
  obtain ⟨hi1, hi2⟩ := List.getElem?_eq_some_iff.1 hi
  obtain ⟨hj1, hj2⟩ := List.getElem?_eq_some_iff.1 hj
  rcases Nat.lt_trichotomy i j with h | h | h
  · exact absurd (by rw [hi2, hj2]; exact hn.symm) (hdist i j hi1 hj1 h)
  · subst h; rw [← hi2, ← hj2]
  · exact absurd (by rw [hi2, hj2]; exact hn) (hdist j i hj1 hi1 h)

/-- **C67** (the verdict). Suppose the archive's names are distinct and its files are stored or deflated and not empty. After
any number of extractions into a checking sink, ended in whatever way and each resumed from any checkpoint saved before, one
that succeeds is followed by a `Validate` that passes exactly if every item is what the archive says its path should be. -/
theorem C67_zip_verdict (hwf : ZipWF A D F) (items : List CItem) (hnd : items.Pairwise (fun a b => a.path ≠ b.path))
    (hdist : A.files.Pairwise (fun a b => a.name ≠ b.name)) (hfiles : ∀ z ∈ A.files, (zipFileEntry z).kind = .file → z.resumable ∧ (zipContent A D z).1 ≠ [])
    (hist : List ECkpt) (k : CSt) (hchain : ZipAttempts A D F checkSink (cNew items) hist k) (ck : Option ECkpt) (before : List ECkpt) (hck : ChooseCk hist ck before)
    (env : ZEnv) (hh : env.Honest A) (V : SaveCons) (u : V.St) (res : List Entry) (hok : (zipResume A env D F checkSink V ck k u).1 = .ok res) :
    cValidate (zipResume A env D F checkSink V ck k u).2.sink = true ↔ ∀ it ∈ items, zipNode A D it.path = some it.node := by
  obtain ⟨_, g2, g3, _⟩ := zipResume_check hwf env hh (checkFits items A) hist before ck k u (zipAttempts_check hwf (checkFits items A) (cNew_ok A D items) hchain) hck
  obtain ⟨g3, g4⟩ := g3 res hok
  have hsane := g2.1
  generalize (zipResume A env D F checkSink V ck k u).2.sink = s at *
  have huniq := names_unique hdist
  have hone : ∀ it ∈ items, (cItemOK s it = true ↔ zipNode A D it.path = some it.node) := by
    intro it hit
    cases hz : zipNode A D it.path with
    | some n =>
      unfold zipNode at hz
      simp only [Option.map_eq_some_iff] at hz
      obtain ⟨z, hz, rfl⟩ := hz
      obtain ⟨z1, z2⟩ := List.mem_filter.1 (List.mem_of_getLast? hz)
      have z2 : z.name = it.path := by simpa using z2
      rw [verdict_item hnd hsane g3 g4 it hit z z1 z2 (fun z' h1 h2 => huniq z z1 z' h1 (h2.trans z2.symm)) (hfiles z z1)]
      simp
    | none =>
      constructor
      · intro h
        exfalso
        unfold cItemOK at h
        cases hd : s.done it.path with
        | none => rw [hd] at h; cases h
        | some d =>
          obtain ⟨z, z1, z2, _⟩ := hsane.mem _ d hd
          unfold zipNode at hz
          simp only [Option.map_eq_none_iff, List.getLast?_eq_none_iff] at hz
          have : z ∈ A.files.filter fun zf => zf.name = it.path := List.mem_filter.2 ⟨z1, by simpa using z2⟩
          rw [hz] at this
          cases this
      · intro h; cases h
  unfold cValidate
  rw [List.all_eq_true, hsane.items]
  exact ⟨fun h it hit => (hone it hit).1 (h it hit), fun h it hit => (hone it hit).2 (h it hit)⟩

/-- **C67** (no false alarms). If the items are what the archive says, and its files are stored or deflated, then in no run,
from whatever checkpoint, after whatever happened before, does the checking sink refuse a call. -/
theorem C67_zip_no_false_alarm (hwf : ZipWF A D F) (items : List CItem)
    (hm : ∀ z ∈ A.files, ∃ it, items.find? (·.path = z.name) = some it ∧ it.node = zipNodeOf A D z)
    (hfiles : ∀ z ∈ A.files, (zipFileEntry z).kind = .file → z.resumable)
    (hist : List ECkpt) (k : CSt) (hchain : ZipAttempts A D F checkSink (cNew items) hist k) (ck : Option ECkpt) (before : List ECkpt) (hck : ChooseCk hist ck before)
    (env : ZEnv) (hh : env.Honest A) (V : SaveCons) (u : V.St) : ∀ ev ∈ (zipResume A env D F checkSink V ck k u).2.log, ev.sinkError = none :=
  zipResume_fine hwf env hh (checkFits items A) hist before ck hm hfiles k u (zipAttempts_check hwf (checkFits items A) (cNew_ok A D items) hchain) hck

end

section
variable {Y : List Byte} {clean : Bool} {Ck : Ckpt → Nat → Prop} {F : Nat} {T : TarFmt}

/-- The supported members of a tar archive have distinct names. -/
def DistinctNames (all : List (THdr × List Byte)) : Prop := (all.filter fun m => m.1.typ ≠ .other).Pairwise fun a b => a.1.name ≠ b.1.name

theorem DistinctNames.unique {all : List (THdr × List Byte)} (h : DistinctNames all) {m m' : THdr × List Byte} (hm : m ∈ all) (hm' : m' ∈ all) (ht : m.1.typ ≠ .other)
    (ht' : m'.1.typ ≠ .other) (hn : m'.1.name = m.1.name) : m' = m := by
  have h1 : m ∈ all.filter fun m => m.1.typ ≠ .other := List.mem_filter.2 ⟨hm, by simpa using ht⟩
  have h2 : m' ∈ all.filter fun m => m.1.typ ≠ .other := List.mem_filter.2 ⟨hm', by simpa using ht'⟩
  unfold DistinctNames at h
  generalize (all.filter fun m => m.1.typ ≠ .other) = l at *
  obtain ⟨i, hi⟩ := List.getElem?_of_mem h1
  obtain ⟨j, hj⟩ := List.getElem?_of_mem h2
  rw [List.pairwise_iff_getElem] at h
  obtain ⟨hi1, hi2⟩ := List.getElem?_eq_some_iff.1 hi
  obtain ⟨hj1, hj2⟩ := List.getElem?_eq_some_iff.1 hj
  rcases Nat.lt_trichotomy i j with g | g | g
  · exact absurd (by rw [hi2, hj2]; exact hn.symm) (h i j hi1 hj1 g)
  · subst g; rw [← hi2, ← hj2]
  · exact absurd (by rw [hi2, hj2]; exact hn) (h j i hj1 hi1 g)

/-- With distinct names a path is what its member says. -/
theorem DistinctNames.node {all : List (THdr × List Byte)} (h : DistinctNames all) {m : THdr × List Byte} (hm : m ∈ all) (ht : m.1.typ ≠ .other) :
    tarNode all m.1.name = some (tarNodeOf m) := by
  unfold tarNode
  have hmem : m ∈ all.filter fun x => x.1.name = m.1.name ∧ x.1.typ ≠ .other := List.mem_filter.2 ⟨hm, by simpa using ht⟩
  rcases List.eq_nil_or_concat (all.filter fun x => x.1.name = m.1.name ∧ x.1.typ ≠ .other) with h0 | ⟨l, b, h0⟩
  · rw [h0] at hmem; cases hmem
  · have hb : b ∈ all.filter fun x => x.1.name = m.1.name ∧ x.1.typ ≠ .other := by rw [h0]; simp
    obtain ⟨hb1, hb2⟩ := List.mem_filter.1 hb
    simp only [decide_eq_true_eq] at hb2
    obtain rfl := h.unique hm hb1 ht hb2.2 hb2.1
    rw [h0]
    simp

theorem tarNode_member {all : List (THdr × List Byte)} {p : Str} {n : PNode} (h : tarNode all p = some n) : ∃ m ∈ all, m.1.name = p ∧ m.1.typ ≠ .other ∧ tarNodeOf m = n := by
  unfold tarNode at h
  simp only [Option.map_eq_some_iff] at h
  obtain ⟨m, h1, h2⟩ := h
  obtain ⟨a, b⟩ := List.mem_filter.1 (List.mem_of_getLast? h1)
  simp only [decide_eq_true_eq] at b
  exact ⟨m, a, b.1, b.2, h2⟩

/-- The verdict on one item. -/
theorem tar_verdict_item {all : List (THdr × List Byte)} {items : List CItem} {s : CSt} (hnd : items.Pairwise (fun a b => a.path ≠ b.path)) (hs : CRecs (TarMay all) items s)
    (hd : ∀ p n, tarNode all p = some n → checkNode s p = some n)
    (hr : ∀ m ∈ all, m.1.typ = .reg → CReach s m.1.name m.2.length) (hdist : DistinctNames all)
    (it : CItem) (hit : it ∈ items) (m : THdr × List Byte) (hz : m ∈ all) (hn : m.1.name = it.path) (ht : m.1.typ ≠ .other) (hf : m.1.typ = .reg → m.2 ≠ []) :
    cItemOK s it = true ↔ tarNodeOf m = it.node := by
  have hfind : s.item it.path = some it := by
    unfold CSt.item
    rw [hs.items]
    exact find_path hnd hit
  have hnode := hd it.path _ (hn ▸ hdist.node hz ht)
  unfold checkNode at hnode
  rw [hfind] at hnode
  simp only at hnode
  unfold cItemOK CItem.node
  cases hk : it.kind with
  | dir =>
    rw [hk] at hnode
    simp only [Option.map_eq_some_iff] at hnode
    obtain ⟨d, h1, h2⟩ := hnode
    rw [h1]
    simp [h2]
  | symlink =>
    rw [hk] at hnode
    simp only [Option.bind_eq_some_iff] at hnode
    obtain ⟨d, h1, h2⟩ := hnode
    rw [h1]
    split at h2
    · rename_i he
      have h2 := Option.some.inj h2
      rw [← h2]
      simp [he]
    · cases h2
  | file =>
    rw [hk] at hnode
    simp only [Option.map_eq_some_iff] at hnode
    obtain ⟨w, h1, h2⟩ := hnode
    have hreg : m.1.typ = .reg := by
      unfold tarNodeOf at h2
      cases hkz : m.1.typ <;> rw [hkz] at h2 ht <;> first | rfl | cases h2 | exact absurd rfl ht
    have hnz : tarNodeOf m = .file m.2 := by unfold tarNodeOf; rw [hreg]
    have hpre : m.2 <+: it.data := by
      rw [hnz] at h2
      injection h2 with h2
      rw [← h2]; exact List.take_prefix _ _
    have hlen : 0 < m.2.length := List.length_pos_iff.2 (hf hreg)
    rcases hr m hz hreg with h0 | ⟨d, g1, g2, g3⟩
    · omega
    rw [hn] at g1
    rw [g1]
    obtain ⟨l1, l2⟩ := hs.low _ d g1
    have l3 := l2 it hfind
    obtain ⟨m', m1, m2, m3, m4⟩ := hs.mem _ d g1
    obtain rfl := hdist.unique hz m1 ht m3 (m2.trans hn.symm)
    have l4 := m4 hreg
    simp only [decide_eq_true_eq]
    rw [hnz]
    constructor
    · rintro ⟨_, h4⟩
      rw [List.IsPrefix.eq_of_length hpre (by omega)]
    · intro h4
      injection h4 with h4
      rw [h4] at g3
      exact ⟨by omega, by omega⟩

/-- **C67** (the verdict), for tar streams: if the supported members have distinct names and the regular files are not empty, a
successful run is followed by a `Validate` that passes exactly if every item is what the stream says its path should be. -/
theorem C67_tar_verdict (hT : T.Law) {all : List (THdr × List Byte)} (hall : TarHas T clean Y all) (items : List CItem) (hnd : items.Pairwise (fun a b => a.path ≠ b.path))
    (hdist : DistinctNames all) (hfiles : ∀ m ∈ all, m.1.typ = .reg → m.2 ≠ [])
    (hist : List ECkpt) (k : CSt) (hchain : TarAttempts Y clean Ck F T checkSink (cNew items) hist k)
    (ck : Option ECkpt) (before : List ECkpt) (hck : ChooseCk hist ck before) (X : TarSrc Y clean Ck F) (pr : Ckpt → Int × Int) (V : SaveCons) (u : V.St)
    (res : List Entry) (hok : (tarRun X T pr checkSink V ck k u).1 = .ok res) :
    cValidate (tarRun X T pr checkSink V ck k u).2.2.sink = true ↔ ∀ it ∈ items, tarNode all it.path = some it.node := by
  have hok0 : TarOKX all Ck T clean Y (checkPath items) (checkTar all items) hist k :=
    tarAttempts_okX hT hall (checkPath items) (fun _ _ _ => trivial) (checkTar all items) (fun _ _ _ _ h => h) ⟨rfl, fun _ h => by cases h⟩
      ⟨⟨rfl, fun _ _ h => (by cases h), fun _ _ h => (by cases h)⟩, fun _ _ h => absurd h (Nat.not_lt_zero _), fun _ _ _ => .inl rfl⟩ hchain
  obtain ⟨_, g2, _⟩ := tarRun_pathX (V := V) hT hall (checkPath items) (fun _ _ _ => trivial) (checkTar all items) X pr hist before ck k u hok0 hck
  obtain ⟨g3, ⟨hsane, hlow, _⟩, _⟩ := g2 res hok
  generalize (tarRun X T pr checkSink V ck k u).2.2.sink = s at *
  have hr : ∀ m ∈ all, m.1.typ = .reg → CReach s m.1.name m.2.length := by
    intro m hm hreg
    obtain ⟨j, hj⟩ := List.getElem?_of_mem hm
    exact hlow j m (List.getElem?_eq_some_iff.1 hj).1 hj hreg
  have hone : ∀ it ∈ items, (cItemOK s it = true ↔ tarNode all it.path = some it.node) := by
    intro it hit
    cases hz : tarNode all it.path with
    | some n =>
      obtain ⟨m, h1, h2, h3, rfl⟩ := tarNode_member hz
      rw [tar_verdict_item hnd hsane (fun p n h => tHolds_node g3 p n rfl h) hr hdist it hit m h1 h2 h3 (hfiles m h1)]
      simp
    | none =>
      constructor
      · intro h
        exfalso
        unfold cItemOK at h
        cases hd : s.done it.path with
        | none => rw [hd] at h; cases h
        | some d =>
          obtain ⟨m, m1, m2, m3, _⟩ := hsane.mem _ d hd
          rw [← m2, hdist.node m1 m3] at hz
          cases hz
      · intro h; cases h
  unfold cValidate
  rw [List.all_eq_true, hsane.items]
  exact ⟨fun h it hit => (hone it hit).1 (h it hit), fun h it hit => (hone it hit).2 (h it hit)⟩

/-- **C67** (no false alarms), for tar streams: if the items are what the members say, no call is refused, in any run, whatever
happened before. -/
theorem C67_tar_no_false_alarm (hT : T.Law) {all : List (THdr × List Byte)} (hall : TarHas T clean Y all) (items : List CItem)
    (hm : ∀ m ∈ all, m.1.typ ≠ .other → ∃ it, items.find? (·.path = m.1.name) = some it ∧ it.node = tarNodeOf m)
    (hist : List ECkpt) (k : CSt) (hchain : TarAttempts Y clean Ck F T checkSink (cNew items) hist k)
    (ck : Option ECkpt) (before : List ECkpt) (hck : ChooseCk hist ck before) (X : TarSrc Y clean Ck F) (pr : Ckpt → Int × Int) (V : SaveCons) (u : V.St) :
    ∀ ev ∈ (tarRun X T pr checkSink V ck k u).2.2.log, ev.sinkError = none :=
  tarRun_fine hT hall hm X pr hist before ck k u
    (tarAttempts_ok hT hall (checkPath items) (fun _ _ _ => trivial) ⟨rfl, fun _ h => by cases h⟩ hchain) hck

end

/-! ## Non-vacuity -/

/-- A directory, a stored file, a link and a deflated file. -/
def oracleArchive : Archive := { toyArchive with files := toyArchive.files.take 4 }

def oracleItems : List CItem :=
  [⟨cs ['d', '/'], .dir, [], []⟩, ⟨cs ['a'], .file, [], [1, 2, 3]⟩, ⟨cs ['l'], .symlink, cs ['a'], []⟩, ⟨cs ['b'], .file, [], [11, 21, 31]⟩]

/-- The same, but a longer file is expected, and one that is not in the archive. -/
def oracleLonger : List CItem :=
  [⟨cs ['d', '/'], .dir, [], []⟩, ⟨cs ['a'], .file, [], [1, 2, 3, 4]⟩, ⟨cs ['l'], .symlink, cs ['a'], []⟩, ⟨cs ['b'], .file, [], [11, 21, 31]⟩]

theorem oracle_wf : ZipWF oracleArchive (toy false false) 100 where
  law := toy_law _ _
  csize := by decide
  budget := by decide

theorem oracle_honest : toyEnv.Honest oracleArchive := by
  intro i zf h chunks hc
  refine toy_honest i zf ?_ chunks hc
  have : (toyArchive.files.take 4)[i]? = some zf := h
  rw [List.getElem?_take] at this
  split at this
  · exact this
  · cases this

def oracleRun (items : List CItem) (ck : Option ECkpt) (k : CSt) (u : List (Except Err Action)) : Except Err (List Entry) × XW checkSink listCons :=
  zipResume oracleArchive toyEnv (toy false false) 100 checkSink listCons ck k u

theorem oracle_step (items : List CItem) (u : List (Except Err Action)) :
    ZipAttempts oracleArchive (toy false false) 100 checkSink (cNew items) ([] ++ savedCks (oracleRun items none (cNew items) u).2.log) (oracleRun items none (cNew items) u).2.sink :=
  ZipAttempts.step toyEnv listCons u oracle_honest .refl .fresh (Or.inl rfl)

/-- A fresh run stopped at the first checkpoint it saves. -/
def oracle1 (items : List CItem) := oracleRun items none (cNew items) [.ok .stop]

/-- The checkpoint saved. -/
def oracleCk (items : List CItem) : ECkpt := (lastSave (oracle1 items).2.log).getD toyCk1

/-- Resumed from it, with the sink as the first run left it. -/
def oracle2 (items : List CItem) := oracleRun items (some (oracleCk items)) (oracle1 items).2.sink []

theorem oracle_cks : savedCks (oracle1 oracleItems).2.log = [oracleCk oracleItems] := by rfl
theorem oracle_cks' : savedCks (oracle1 oracleLonger).2.log = [oracleCk oracleLonger] := by rfl

/-- The first run did stop. -/
example : (oracle1 oracleItems).1 = .error .stop := by rfl

theorem oracle2_ok : (oracle2 oracleItems).1 = .ok (oracleArchive.files.map zipFileEntry) := by rfl
theorem oracle2_ok' : (oracle2 oracleLonger).1 = .ok (oracleArchive.files.map zipFileEntry) := by rfl

theorem oracle_pick {h : List ECkpt} {c : ECkpt} (e : h = [c]) : ChooseCk ([] ++ h) (some c) [c] := by
  subst e
  exact ChooseCk.pick (a := []) (b := []) rfl

theorem oracle_distinct : oracleArchive.files.Pairwise (fun a b => a.name ≠ b.name) := by decide

theorem oracle_files : ∀ z ∈ oracleArchive.files, (zipFileEntry z).kind = .file → z.resumable ∧ (zipContent oracleArchive (toy false false) z).1 ≠ [] := by
  intro z hz
  simp only [oracleArchive, toyArchive, List.take, List.mem_cons, List.not_mem_nil, or_false] at hz
  rcases hz with rfl | rfl | rfl | rfl
  · exact fun h => absurd h (by decide)
  · exact fun _ => ⟨Or.inl rfl, by decide +kernel⟩
  · exact fun h => absurd h (by decide)
  · exact fun _ => ⟨Or.inr rfl, by decide +kernel⟩

theorem oracle_verdict (items : List CItem) (hnd : items.Pairwise (fun a b => a.path ≠ b.path)) (u : List (Except Err Action)) (c : ECkpt)
    (hc : savedCks (oracleRun items none (cNew items) u).2.log = [c]) (res : List Entry)
    (hok : (oracleRun items (some c) (oracleRun items none (cNew items) u).2.sink []).1 = .ok res) :
    cValidate (oracleRun items (some c) (oracleRun items none (cNew items) u).2.sink []).2.sink = true ↔
      ∀ it ∈ items, zipNode oracleArchive (toy false false) it.path = some it.node :=
  C67_zip_verdict oracle_wf items hnd oracle_distinct oracle_files _ _ (oracle_step items u) _ _ (oracle_pick hc) toyEnv oracle_honest listCons [] res hok

theorem oracle_quiet (items : List CItem) (u : List (Except Err Action)) (c : ECkpt)
    (hc : savedCks (oracleRun items none (cNew items) u).2.log = [c])
    (hm : ∀ z ∈ oracleArchive.files, ∃ it, items.find? (·.path = z.name) = some it ∧ it.node = zipNodeOf oracleArchive (toy false false) z) :
    ∀ ev ∈ (oracleRun items (some c) (oracleRun items none (cNew items) u).2.sink []).2.log, ev.sinkError = none :=
  C67_zip_no_false_alarm oracle_wf items hm (fun z hz hk => (oracle_files z hz hk).1) _ _ (oracle_step items u) _ _ (oracle_pick hc) toyEnv oracle_honest listCons []

theorem oracle2_verdict (items : List CItem) (hnd : items.Pairwise (fun a b => a.path ≠ b.path)) (hc : savedCks (oracle1 items).2.log = [oracleCk items]) (res : List Entry)
    (hok : (oracle2 items).1 = .ok res) :
    cValidate (oracle2 items).2.sink = true ↔ ∀ it ∈ items, zipNode oracleArchive (toy false false) it.path = some it.node :=
  oracle_verdict items hnd [.ok .stop] (oracleCk items) hc res hok

theorem oracle2_quiet (items : List CItem) (hc : savedCks (oracle1 items).2.log = [oracleCk items])
    (hm : ∀ z ∈ oracleArchive.files, ∃ it, items.find? (·.path = z.name) = some it ∧ it.node = zipNodeOf oracleArchive (toy false false) z) :
    ∀ ev ∈ (oracle2 items).2.log, ev.sinkError = none :=
  oracle_quiet items [.ok .stop] (oracleCk items) hc hm

/-- The verdict after the resumed run: the items are what the archive says. -/
example : cValidate (oracle2 oracleItems).2.sink = true :=
  (oracle2_verdict oracleItems (by decide) oracle_cks _ oracle2_ok).2 (by decide +kernel)

/-- With a longer file expected the run succeeds too, and the verdict is no. -/
example : cValidate (oracle2 oracleLonger).2.sink ≠ true :=
  fun h => absurd ((oracle2_verdict oracleLonger (by decide) oracle_cks' _ oracle2_ok').1 h) (by decide +kernel)

/-- No call of the resumed run is refused. -/
example : ∀ ev ∈ (oracle2 oracleItems).2.log, ev.sinkError = none :=
  oracle2_quiet oracleItems oracle_cks (by
    intro z hz
    simp only [oracleArchive, toyArchive, List.take, List.mem_cons, List.not_mem_nil, or_false] at hz
    rcases hz with rfl | rfl | rfl | rfl
    · exact ⟨_, rfl, by decide +kernel⟩
    · exact ⟨_, rfl, by decide +kernel⟩
    · exact ⟨_, rfl, by decide +kernel⟩
    · exact ⟨_, rfl, by decide +kernel⟩)

/-- With a shorter file expected a call is refused, and the run fails. -/
example : (oracleRun [⟨cs ['d', '/'], .dir, [], []⟩, ⟨cs ['a'], .file, [], [1, 2]⟩] none
    (cNew [⟨cs ['d', '/'], .dir, [], []⟩, ⟨cs ['a'], .file, [], [1, 2]⟩]) []).1.toOption = none := by rfl

/-- Two members of one name, the second shorter. -/
def twiceArchive : Archive where
  bytes := [1, 2, 3]
  files := [⟨cs ['a'], .store, false, 3, 3, 0o644, 0, ([], true)⟩, ⟨cs ['a'], .store, false, 1, 1, 0o644, 0, ([], true)⟩]

/-- An environment that answers as it should. -/
def quietEnv (opens : Nat → Except Err (List (List Byte) × Option Err)) : ZEnv where
  sched _ _ := ⟨0, false, none⟩
  dataOff _ := none
  opens := opens

/-- **C67**, why "distinct names": a later member of the same name replaces the file by a part of it, and `Validate` passes. -/
theorem C67_false_duplicates : ¬ ∀ (A : Archive) (D : Decomp) (F : Nat), ZipWF A D F → ∀ (items : List CItem), items.Pairwise (fun a b => a.path ≠ b.path) →
    (∀ z ∈ A.files, (zipFileEntry z).kind = .file → z.resumable ∧ (zipContent A D z).1 ≠ []) → ∀ (env : ZEnv), env.Honest A → ∀ res,
    (zipResume A env D F checkSink listCons none (cNew items) []).1 = .ok res →
    cValidate (zipResume A env D F checkSink listCons none (cNew items) []).2.sink = true → ∀ it ∈ items, zipNode A D it.path = some it.node := by
  intro hall
  have h := hall twiceArchive (toy false false) 100 ⟨toy_law _ _, by decide, by decide⟩ [⟨cs ['a'], .file, [], [1, 2, 3]⟩] (by decide)
    (by
      intro z hz
      simp only [twiceArchive, List.mem_cons, List.not_mem_nil, or_false] at hz
      rcases hz with rfl | rfl
      · exact fun _ => ⟨Or.inl rfl, by decide +kernel⟩
      · exact fun _ => ⟨Or.inl rfl, by decide +kernel⟩)
    (quietEnv fun _ => .ok ([], none))
    (by
      intro i zf h chunks hc
      simp only [quietEnv, Except.ok.injEq, Prod.mk.injEq] at hc
      obtain rfl := hc.1
      match i with
      | 0 | 1 => simp [twiceArchive] at h; subst h; rfl
      | n + 2 => simp [twiceArchive] at h)
    _ (by rfl) (by rfl) _ (List.mem_singleton.2 rfl)
  revert h
  decide +kernel

/-- An empty file compressed with a method savior does not know. -/
def hollowArchive : Archive where
  bytes := []
  files := [⟨cs ['a'], .other, false, 0, 0, 0o644, 0, ([], true)⟩]

/-- **C67**, why "not empty": such a file is extracted as it should be, and `Validate` fails. -/
theorem C67_false_empty : ¬ ∀ (A : Archive) (D : Decomp) (F : Nat), ZipWF A D F → ∀ (items : List CItem), items.Pairwise (fun a b => a.path ≠ b.path) →
    A.files.Pairwise (fun a b => a.name ≠ b.name) → ∀ (env : ZEnv), env.Honest A → ∀ res,
    (zipResume A env D F checkSink listCons none (cNew items) []).1 = .ok res → (∀ it ∈ items, zipNode A D it.path = some it.node) →
    cValidate (zipResume A env D F checkSink listCons none (cNew items) []).2.sink = true := by
  intro hall
  have h := hall hollowArchive (toy false false) 100 ⟨toy_law _ _, by decide, by decide⟩ [⟨cs ['a'], .file, [], []⟩] (by decide) (by decide)
    (quietEnv fun _ => .ok ([], none))
    (by
      intro i zf h chunks hc
      simp only [quietEnv, Except.ok.injEq, Prod.mk.injEq] at hc
      obtain rfl := hc.1
      match i with
      | 0 => simp [hollowArchive] at h; subst h; rfl
      | n + 1 => simp [hollowArchive] at h)
    _ (by rfl) (by decide +kernel)
  revert h
  decide +kernel

end Savior
