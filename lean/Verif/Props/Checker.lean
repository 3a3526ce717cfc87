import Verif.CheckerLemmas
import Verif.ZipToy
/-!
# The tests' oracle: C52
-/

namespace Savior

/-- Items with distinct paths are found under their paths. -/
theorem find_path {items : List CItem} (hnd : items.Pairwise (fun a b => a.path ≠ b.path)) {it : CItem} (hit : it ∈ items) :
    items.find? (·.path = it.path) = some it := by
  induction items with
  | nil => cases hit
  | cons a l ih =>
    rw [List.find?_cons]
    rw [List.pairwise_cons] at hnd
    cases hit with
    | head => simp
    | tail _ h =>
      have := hnd.1 it h
      simp only [this, decide_false]
      exact ih hnd.2 h

/-- **C52** (what is accepted is right). Whatever calls are made on a new checking sink, in whatever order and on however
many writers, every byte a `Write` reported written at a position is the byte the reference has at that position, for a
file the sink knows. -/
theorem C52_accepted_right (items : List CItem) (ops : List COp) (p : Str) (pos : Int) (b : Byte)
    (h : CWrote (cRun ops (cNew items)).1 p pos b) :
    ∃ it, items.find? (·.path = p) = some it ∧ it.kind = .file ∧ 0 ≤ pos ∧ it.data[pos.toNat]? = some b := by
  have inv := cRun_inv items ops (cNew items) rfl rfl rfl
  obtain ⟨it, h1, h2⟩ := inv.right p pos b h
  unfold CSt.item at h1
  rw [inv.items] at h1
  exact ⟨it, h1, h2⟩

/-- **C52** (nothing wrong is accepted, nothing right rejected). A `Write` on the `k`th writer handed out, opened for `e`,
after any history: it succeeds exactly when the buffer is what the reference has from that writer's position on, reports a
full count exactly when it succeeds, and otherwise stops at the first byte that is wrong or too many. -/
theorem C52_write_verdict (items : List CItem) (ops : List COp) (k : Nat) (bs : List Byte) (e : Entry)
    (he : (cOpened (cRun ops (cNew items)).1)[k]? = some e) :
    ∃ it, items.find? (·.path = e.path) = some it ∧
      ((cWrite k bs (cRun ops (cNew items)).2).1.2 = none ↔
        bs = (it.data.drop (e.woff + cCount k (cRun ops (cNew items)).1).toNat).take bs.length) ∧
      ((cWrite k bs (cRun ops (cNew items)).2).1.2 = none ↔ (cWrite k bs (cRun ops (cNew items)).2).1.1 = bs.length) ∧
      (cWrite k bs (cRun ops (cNew items)).2).1.1 ≤ bs.length := by
  have inv := cRun_inv items ops (cNew items) rfl rfl rfl
  have hk : k < (cRun ops (cNew items)).2.wr.length := by
    rw [inv.opened]; exact (List.getElem?_eq_some_iff.1 he).1
  obtain ⟨w, hw⟩ : ∃ w, (cRun ops (cNew items)).2.wr[k]? = some w := ⟨_, List.getElem?_eq_getElem hk⟩
  obtain ⟨e', a1, a2, a3, a4, a5, a6, _⟩ := inv.wr k w hw
  rw [he] at a1
  cases a1
  unfold CSt.item at a3
  rw [inv.items] at a3
  have hq : (cWrite k bs (cRun ops (cNew items)).2).1 = cCheck w.item.data w.off bs := by
    unfold cWrite; rw [hw]
  have ho : (e.woff + cCount k (cRun ops (cNew items)).1).toNat = w.off := by omega
  rw [hq, ho]
  obtain ⟨c1, c2, c3, c4⟩ := cCheck_spec w.item.data w.off bs
  refine ⟨w.item, a3, ?_, c3, c1⟩
  rw [c3]
  constructor
  · intro hl
    apply List.ext_getElem?
    intro j
    by_cases hj : j < bs.length
    · obtain ⟨b, h1, h2⟩ := c2 j (by omega)
      rw [List.getElem?_take_of_lt hj, List.getElem?_drop, h1, h2]
    · rw [List.getElem?_eq_none (by omega), List.getElem?_eq_none (by simp only [List.length_take]; omega)]
  · intro hb
    apply Decidable.byContradiction
    intro hne
    obtain ⟨b, h1, h2⟩ := c4 (by omega)
    apply h2
    have : (List.take bs.length (List.drop w.off w.item.data))[(cCheck w.item.data w.off bs).1]? = some b := by rw [← hb]; exact h1
    rw [List.getElem?_take_of_lt (by omega), List.getElem?_drop] at this
    exact this

/-- **C52** (which calls are accepted). After any history, a call other than `Write` is accepted exactly when the sink has an
item at that path, of that kind — for `Symlink`, with that target; for `GetWriter`, with a write offset within the file. -/
theorem C52_call_verdicts (items : List CItem) (ops : List COp) (e : Entry) (t : Str) :
    ((cMkdir e (cRun ops (cNew items)).2).1 = none ↔ ∃ it, items.find? (·.path = e.path) = some it ∧ it.kind = .dir) ∧
    ((cPrealloc e (cRun ops (cNew items)).2).1 = none ↔ ∃ it, items.find? (·.path = e.path) = some it ∧ it.kind = .file) ∧
    ((cSymlink e t (cRun ops (cNew items)).2).1 = none ↔ ∃ it, items.find? (·.path = e.path) = some it ∧ it.kind = .symlink ∧ it.link = t) ∧
    ((cOpen e (cRun ops (cNew items)).2).1 = none ↔
      ∃ it, items.find? (·.path = e.path) = some it ∧ it.kind = .file ∧ 0 ≤ e.woff ∧ e.woff ≤ it.data.length) := by
  have inv := cRun_inv items ops (cNew items) rfl rfl rfl
  unfold cMkdir cPrealloc cSymlink cOpen cWith CSt.item
  rw [inv.items]
  cases hf : items.find? (·.path = e.path) with
  | none => simp
  | some it =>
    simp only [Option.some.injEq, exists_eq_left']
    cases hk : it.kind with
    | dir => simp
    | symlink =>
      simp only [ne_eq, reduceCtorEq, not_false_eq_true, ↓reduceIte, not_true_eq_false, false_and, true_and, iff_false]
      by_cases hl : it.link = t <;> simp [hl]
    | file =>
      refine ⟨by simp, by simp, by simp, ?_⟩
      simp only [ne_eq, not_true_eq_false, ↓reduceIte, true_and, ite_not]
      by_cases hz : e.woff = 0
      · simp [hz]
      · rw [if_neg hz]
        unfold cSeek
        by_cases h1 : e.woff > it.data.length
        · simp [h1]
        · by_cases h2 : e.woff < 0
          · simp [h1, h2]
          · simp [h1, h2]; omega

/-- **C52** (a reset sink is as good as new): nothing done before shows in any later verdict. -/
theorem C52_reset (items : List CItem) (ops : List COp) : cReset (cRun ops (cNew items)).2 = cNew items := by
  have inv := cRun_inv items ops (cNew items) rfl rfl rfl
  unfold cReset
  rw [inv.items]
  rfl

/-- **C52** (what a positive verdict means). If `Validate` is satisfied after some history then every file was written to at
its very beginning and by a wholly accepted `Write` ending exactly at its end, every directory was made, and every symlink
with a non-empty target was made with that target. *Missing from the full statement: that nothing in between was left
out; see `C52_false`.* -/
theorem C52_validate_partial (items : List CItem) (hnd : items.Pairwise (fun a b => a.path ≠ b.path)) (ops : List COp)
    (hv : cValidate (cRun ops (cNew items)).2 = true) (it : CItem) (hit : it ∈ items) :
    (it.kind = .file → CBegan (cRun ops (cNew items)).1 it.path 0 ∧
      (it.data ≠ [] → CReached (cRun ops (cNew items)).1 it.path it.data.length)) ∧
    (it.kind = .dir → ∃ e n, (COp.mkdir e, (n, none)) ∈ (cRun ops (cNew items)).1 ∧ e.path = it.path) ∧
    (it.kind = .symlink → it.link ≠ [] → ∃ e n, (COp.symlink e it.link, (n, none)) ∈ (cRun ops (cNew items)).1 ∧ e.path = it.path) := by
  have inv := cRun_inv items ops (cNew items) rfl rfl rfl
  have hfind : (cRun ops (cNew items)).2.item it.path = some it := by
    unfold CSt.item
    rw [inv.items]
    clear hv inv
    induction items with
    | nil => cases hit
    | cons a l ih =>
      rw [List.find?_cons]
      rw [List.pairwise_cons] at hnd
      cases hit with
      | head => simp
      | tail _ h =>
        have := hnd.1 it h
        simp only [this, decide_false]
        exact ih hnd.2 h
  have hok : cItemOK (cRun ops (cNew items)).2 it = true := by
    unfold cValidate at hv
    rw [inv.items] at hv
    exact List.all_eq_true.1 hv it hit
  unfold cItemOK at hok
  cases hd : (cRun ops (cNew items)).2.done it.path with
  | none => rw [hd] at hok; cases hok
  | some d =>
    rw [hd] at hok
    simp only at hok
    refine ⟨fun hk => ?_, fun hk => ?_, fun hk hl => ?_⟩
    · rw [hk] at hok
      simp only [decide_eq_true_eq] at hok
      refine ⟨?_, fun hne => ?_⟩
      · rcases inv.min _ _ hd with h | h
        · omega
        · rw [hok.1] at h; exact h
      · rcases inv.max _ _ hd with h | h
        · have : 0 < it.data.length := List.length_pos_iff.2 hne
          omega
        · rw [hok.2] at h; exact h
    · obtain ⟨e, n, h1, h2⟩ := inv.dir _ d it hd hfind hk
      exact ⟨e, n, h1, h2⟩
    · rw [hk] at hok
      simp only [decide_eq_true_eq] at hok
      rcases inv.link _ _ hd with h | ⟨e, t, n, h1, h2, h3⟩
      · rw [hok] at h; exact absurd h hl
      · rw [hok] at h3
        subst h3
        exact ⟨e, n, h1, h2⟩

/-- **C52** (and when it is positive). The converse: if every file was written to at its very beginning, and by a wholly
accepted `Write` ending at its end, every directory was made and every symlink was made (with its target), `Validate` is
satisfied, whatever other calls succeeded or failed. So, for symlinks with non-empty targets, these conditions are exactly
what `Validate` checks. -/
theorem C52_validate_iff (items : List CItem) (hnd : items.Pairwise (fun a b => a.path ≠ b.path)) (ops : List COp)
    (hsl : ∀ it ∈ items, it.kind = .symlink → it.link ≠ []) :
    cValidate (cRun ops (cNew items)).2 = true ↔ ∀ it ∈ items,
    (it.kind = .file → CBegan (cRun ops (cNew items)).1 it.path 0 ∧
      (it.data ≠ [] → CReached (cRun ops (cNew items)).1 it.path it.data.length)) ∧
    (it.kind = .dir → ∃ e n, (COp.mkdir e, (n, none)) ∈ (cRun ops (cNew items)).1 ∧ e.path = it.path) ∧
    (it.kind = .symlink → ∃ e n, (COp.symlink e it.link, (n, none)) ∈ (cRun ops (cNew items)).1 ∧ e.path = it.path) := by
  constructor
  · intro hv it hit
    obtain ⟨h1, h2, h3⟩ := C52_validate_partial items hnd ops hv it hit
    exact ⟨h1, h2, fun hk => h3 hk (hsl it hit hk)⟩
  · intro h
    have inv := cRun_inv items ops (cNew items) rfl rfl rfl
    have made := cRun_made (cNew items) _ ops rfl
    unfold cValidate
    rw [inv.items]
    rw [List.all_eq_true]
    intro it hit
    have hfind : (cRun ops (cNew items)).2.item it.path = some it := by
      unfold CSt.item
      rw [inv.items]
      exact find_path hnd hit
    obtain ⟨h1, h2, h3⟩ := h it hit
    unfold cItemOK
    cases hk : it.kind with
    | dir =>
      obtain ⟨e, n, hm, hp⟩ := h2 hk
      obtain ⟨d, hd⟩ := made.mkd e n hm
      rw [hp] at hd
      rw [hd]
    | symlink =>
      obtain ⟨e, n, hm, hp⟩ := h3 hk
      obtain ⟨d, it', hd, _, _, hl⟩ := made.sy e _ n hm
      rw [hp] at hd
      rw [hd]
      simp [hl]
    | file =>
      obtain ⟨hb, hr⟩ := h1 hk
      obtain ⟨d, hd, hmin⟩ := inv.began _ _ hb
      rw [hd]
      simp only [decide_eq_true_eq]
      constructor
      · rcases inv.min _ _ hd with h | h
        · omega
        · have := inv.began_nonneg h; omega
      · have hle : d.maxW ≤ it.data.length := by
          rcases inv.max _ _ hd with h | h
          · omega
          · obtain ⟨_, it', _, _, g3, g4⟩ := inv.reached _ _ h
            rw [hfind] at g3; cases g3; exact g4
        by_cases hz : it.data = []
        · rcases inv.max _ _ hd with h | h
          · rw [hz, h]; rfl
          · rw [hz] at hle ⊢
            obtain ⟨pre, post, k, bs, n, e, g1, g2, g3, g4⟩ := h
            have : 0 ≤ e.woff + (cCount k pre : Int) := inv.began_nonneg (p := it.path) ⟨pre, post, k, bs, _, e, g1, g2, g3, rfl⟩
            simp only [List.length_nil] at hle ⊢
            omega
        · obtain ⟨d', it', g1, g2, _, _⟩ := inv.reached _ _ (hr hz)
          rw [hd] at g1; cases g1
          omega

/-- A history that meets the conditions although a call in between failed: a symlink made rightly, then wrongly. -/
example : cValidate (cRun [.symlink ⟨[103], .symlink, 0, 0, 0, 0, [5]⟩ [5], .symlink ⟨[103], .symlink, 0, 0, 0, 0, [6]⟩ [6]]
    (cNew [⟨[103], .symlink, [5], []⟩])).2 = true := by
  rw [C52_validate_iff _ (by simp) _ (by decide)]
  intro it hit
  simp only [List.mem_singleton] at hit
  subst hit
  refine ⟨by simp, by simp, fun _ => ⟨⟨[103], .symlink, 0, 0, 0, 0, [5]⟩, 0, ?_, rfl⟩⟩
  exact List.mem_cons_self ..

/-- **C52** (when the verdict can be trusted). If moreover no writer was opened beyond what wholly accepted writes to the same
path had reached, a positive verdict does mean that every byte of every file was written, correctly. -/
theorem C52_validate_no_gaps (items : List CItem) (hnd : items.Pairwise (fun a b => a.path ≠ b.path)) (ops : List COp)
    (hv : cValidate (cRun ops (cNew items)).2 = true) (hg : CNoGaps (cRun ops (cNew items)).1) (it : CItem) (hit : it ∈ items)
    (hk : it.kind = .file) (pos : Nat) (b : Byte) (hb : it.data[pos]? = some b) :
    CWrote (cRun ops (cNew items)).1 it.path pos b := by
  have inv := cRun_inv items ops (cNew items) rfl rfl rfl
  have hlen := (List.getElem?_eq_some_iff.1 hb).1
  have hr := ((C52_validate_partial items hnd ops hv it hit).1 hk).2 (by intro h; rw [h] at hlen; simp at hlen)
  obtain ⟨b', hw⟩ := cNoGaps_covers rfl rfl rfl _ ops rfl hg it.path it.data.length hr pos (by omega) (by omega)
  obtain ⟨it', h1, _, _, h4⟩ := C52_accepted_right items ops it.path pos b' hw
  have : it' = it := by
    clear hv hg hb hr hw h4 hlen inv
    induction items with
    | nil => cases hit
    | cons a l ih =>
      rw [List.find?_cons] at h1
      rw [List.pairwise_cons] at hnd
      cases hit with
      | head => simpa using h1.symm
      | tail _ h =>
        have := hnd.1 it h
        simp only [this, decide_false] at h1
        exact ih hnd.2 h h1
  subst this
  rw [show ((pos : Int)).toNat = pos from by omega, hb] at h4
  cases h4
  exact hw

/-- The entry for a file named `f`, to be written from `off` on. -/
def cEntry (off : Int) : Entry := ⟨[102], .file, 420, 0, 0, off, []⟩

/-- A well-behaved history: the file is written in two pieces by two writers, as after a resume. -/
def cGood : List COp := [.open_ (cEntry 0), .write 0 [10, 20], .open_ (cEntry 1), .write 1 [20, 30]]

/-- The hypotheses of the theorems above can be met. -/
example : cValidate (cRun cGood (cNew [⟨[102], .file, [], [10, 20, 30]⟩])).2 = true ∧
    (cOpened (cRun cGood (cNew [⟨[102], .file, [], [10, 20, 30]⟩])).1)[1]? = some (cEntry 1) ∧
    CNoGaps (cRun cGood (cNew [⟨[102], .file, [], [10, 20, 30]⟩])).1 := by
  have htr : (cRun cGood (cNew [⟨[102], .file, [], [10, 20, 30]⟩])).1 =
    [(.open_ (cEntry 0), (0, none)), (.write 0 [10, 20], (2, none)), (.open_ (cEntry 1), (0, none)), (.write 1 [20, 30], (2, none))] := by rfl
  refine ⟨by decide, by rw [htr]; rfl, ?_⟩
  rw [htr]
  intro pre post e n h
  match pre, h with
  | [], h => cases h; exact .inl rfl
  | [_], h => cases h
  | [_, _], h =>
    cases h
    exact .inr ⟨2, ⟨[(.open_ (cEntry 0), (0, none))], [], 0, [10, 20], 2, cEntry 0, rfl, rfl, rfl, rfl⟩, by decide⟩
  | [_, _, _], h => cases h
  | _ :: _ :: _ :: _ :: _, h => simp at h

/-- **C52 is false** as it stands: for every non-empty file there is a history after which `Validate` is satisfied although
not a single byte was ever written. (An empty `Write` at the beginning, and one by a writer opened at the end.) -/
theorem C52_false (data : List Byte) (hd : data ≠ []) : ∃ ops : List COp,
    cValidate (cRun ops (cNew [⟨[102], .file, [], data⟩])).2 = true ∧
    ∀ p pos b, ¬ CWrote (cRun ops (cNew [⟨[102], .file, [], data⟩])).1 p pos b := by
  have hl : 0 < data.length := List.length_pos_iff.2 hd
  have hneg : ¬ ((data.length : Int) < 0) := by omega
  refine ⟨[.open_ (cEntry 0), .write 0 [], .open_ (cEntry data.length), .write 1 []], ?_⟩
  have h1 : cRun [.open_ (cEntry 0), .write 0 [], .open_ (cEntry data.length), .write 1 []] (cNew [⟨[102], .file, [], data⟩]) =
    ([(.open_ (cEntry 0), (0, none)), (.write 0 [], (0, none)), (.open_ (cEntry data.length), (0, none)), (.write 1 [], (0, none))],
      (cRun [.open_ (cEntry 0), .write 0 [], .open_ (cEntry data.length), .write 1 []] (cNew [⟨[102], .file, [], data⟩])).2) := by
    simp [cRun, cStep, cOpen, cWith, CSt.item, cNew, cEntry, CSt.setDone, cWrite, cCheck, cSeek, Nat.ne_of_gt hl, hneg]
  refine ⟨?_, ?_⟩
  · simp [cRun, cStep, cOpen, cWith, CSt.item, cNew, cEntry, CSt.setDone, cWrite, cCheck, cSeek, Nat.ne_of_gt hl, hneg, cValidate, cItemOK,
      CDone.fresh, hl]
  · rw [h1]
    rintro p pos b ⟨pre, post, k, bs, n, err, e, j, h, _, _, hj, hb, _⟩
    have hm : (COp.write k bs, (n, err)) ∈ [(COp.open_ (cEntry 0), ((0, none) : CRes)), (.write 0 [], (0, none)), (.open_ (cEntry data.length), (0, none)), (.write 1 [], (0, none))] := by
      simp only at h
      rw [h]; simp
    simp at hm
    rcases hm with hm | hm <;> omega

/-- An archive of one empty file compressed with a method this package does not know (its content comes from `Open`). -/
def emptyOther : Archive := ⟨[], [⟨[102], .other, false, 0, 0, 420, 0, ([], true)⟩]⟩

/-- **And the verdict is wrong the other way round too**: a correct and complete extraction of an empty file can be judged
"start of file missing", because the copy of such members makes no `Write` call when there is nothing to write
(zipextractor.go:250, io.Copy). -/
theorem C52_false_alarm :
    ∃ env D F, (zipResume emptyOther env D F checkSink nopCons none (cNew [⟨[102], .file, [], []⟩]) ()).1 = .ok [zipFileEntry ⟨[102], .other, false, 0, 0, 420, 0, ([], true)⟩] ∧
      cValidate (zipResume emptyOther env D F checkSink nopCons none (cNew [⟨[102], .file, [], []⟩]) ()).2.sink = false :=
  ⟨⟨fun _ _ => default, fun _ => none, fun _ => .ok ([], none)⟩, toy false false, 10, by rfl, by decide +kernel⟩

end Savior
