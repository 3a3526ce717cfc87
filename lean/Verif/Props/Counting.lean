import Verif.Counting
import Verif.Spec.Throttle
/-!
# Properties of counting sources (C26, C27, C28)
-/

namespace Savior
open Seek (Geo GoodS AtS)

theorem count_src {I : SeekSrcM} (n : Nat) (s : CntSt I) : (Cnt.count n s).src = s.src := by
  unfold Cnt.count; split <;> rfl

theorem count_step {I : SeekSrcM} (answer : Nat → Option Err) (op : SrcOp) (s : CntSt I) (log : List (Ckpt × Option Err)) :
    (srcStep (countM I).toSourceM answer op s log).1 = (srcStep I.toSourceM answer op s.src log).1 ∧
    CntSt.src (srcStep (countM I).toSourceM answer op s log).2.1 = (srcStep I.toSourceM answer op s.src log).2.1 ∧
    (srcStep (countM I).toSourceM answer op s log).2.2 = (srcStep I.toSourceM answer op s.src log).2.2 := by
  cases op with
  | resumeNil => exact ⟨rfl, rfl, rfl⟩
  | resumeCk i =>
    simp only [srcStep]
    cases log[i]? with
    | none => exact ⟨rfl, rfl, rfl⟩
    | some x => exact ⟨rfl, rfl, rfl⟩
  | read n => exact ⟨rfl, count_src _ _, rfl⟩
  | readByte =>
    refine ⟨rfl, ?_, rfl⟩
    show CntSt.src (if _ then _ else _) = _
    split
    · exact count_src _ _
    · rfl
  | wantSave => exact ⟨rfl, rfl, rfl⟩
  | setSSC b => exact ⟨rfl, rfl, rfl⟩

/-- **C26.** Over any `SeekSource` and any history of calls (`Resume`, `Read`, `ReadByte`, `WantSave`, `SetSourceSaveConsumer`,
`Section`), a counting source shows the caller exactly what the wrapped source would (results, `Tell`, `Size`, `Progress`,
the save consumer's calls; the error of `Section` up to `errors.Cause`), and leaves the wrapped source in exactly the same
state. -/
theorem C26_transparent (I : SeekSrcM) (answer : Nat → Option Err) : ∀ (ops : List SeekOp) (s : CntSt I)
    (log : List (Ckpt × Option Err)),
    (seekRun (countM I) answer ops s log).1 = (seekRun I answer ops s.src log).1 ∧
    CntSt.src (seekRun (countM I) answer ops s log).2.1 = (seekRun I answer ops s.src log).2.1 ∧
    (seekRun (countM I) answer ops s log).2.2 = (seekRun I answer ops s.src log).2.2 := by
  intro ops
  induction ops with
  | nil => intro s log; exact ⟨rfl, rfl, rfl⟩
  | cons op ops ih =>
    intro s log
    cases op with
    | call op =>
      obtain ⟨h1, h2, h3⟩ := count_step answer op s log
      simp only [seekRun]
      generalize srcStep (countM I).toSourceM answer op s log = A at *
      generalize srcStep I.toSourceM answer op s.src log = B at *
      obtain ⟨a1, a2, a3⟩ := A
      obtain ⟨b1, b2, b3⟩ := B
      simp only at h1 h2 h3
      subst h1 h2 h3
      obtain ⟨g1, g2, g3⟩ := ih a2 a3
      exact ⟨by rw [g1]; rfl, g2, g3⟩
    | sect a z =>
      simp only [seekRun]
      have hs : (countM I).section_ a z s = Cnt.section_ a z s := rfl
      rw [hs]
      unfold Cnt.section_
      cases h : I.section_ a z s.src with
      | error e =>
        simp only []
        obtain ⟨g1, g2, g3⟩ := ih s log
        exact ⟨by rw [g1]; rfl, g2, g3⟩
      | ok t =>
        simp only []
        obtain ⟨g1, g2, g3⟩ := ih { src := t, base := s.base + a, num := 0, calls := s.calls } log
        exact ⟨by rw [g1]; rfl, g2, g3⟩

/-- **C28 (counting sources).** They report the wrapped source's progress. -/
theorem C28_counting_progress (I : SeekSrcM) (s : CntSt I) : (countM I).progress s = I.progress s.src := rfl

/-- A read call: `Read` with a buffer of that length, or (`none`) `ReadByte`. -/
abbrev ReadOp := Option Nat

/-- Performing it: the number of bytes delivered (`ReadByte`: one unless it fails), and the states after it. -/
def readOp (I : SeekSrcM) {C : Type} (cb : Callback C) (op : ReadOp) (s : CntSt I) (c : C) : Nat × CntSt I × C :=
  match op with
  | some n => let r := (countM I).read cb n s c; (r.1.1.length, r.2)
  | none => let r := (countM I).readByte cb s c; (if r.1.2 = none then 1 else 0, r.2)

/-- Performing the read calls in turn, whatever the results: for every call the number of bytes delivered, the callbacks the
user received during it, and the absolute offset after it. -/
def readTrace (I : SeekSrcM) {C : Type} (cb : Callback C) : List ReadOp → CntSt I → C → List (Nat × List Int × Int) × CntSt I × C
  | [], s, c => ([], s, c)
  | op :: ops, s, c =>
    let r := readOp I cb op s c
    let s1 := r.2.1
    let q := readTrace I cb ops s1 r.2.2
    ((r.1, s1.calls.drop s.calls.length, s1.base + I.tell s1.src) :: q.1, q.2)

theorem count_calls {I : SeekSrcM} (n : Nat) (s : CntSt I) :
    (Cnt.count n s).base = s.base ∧
    (Cnt.count n s).calls = s.calls ++ (if 131072 < s.num + n then [s.base + I.tell s.src] else []) ∧
    (Cnt.count n s).num = (if 131072 < s.num + n then 0 else s.num + n) := by
  unfold Cnt.count readByteThreshold
  by_cases h : 131072 < s.num + n
  · simp [h]
  · simp [h]

theorem read_calls (I : SeekSrcM) {C : Type} (cb : Callback C) (op : ReadOp) (s : CntSt I) (c : C) (hs : s.num ≤ 131072) :
    let r := readOp I cb op s c
    let s1 := r.2.1
    s1.base = s.base ∧
    s1.calls = s.calls ++ (if 131072 < s.num + r.1 then [s1.base + I.tell s1.src] else []) ∧
    s1.num = (if 131072 < s.num + r.1 then 0 else s.num + r.1) := by
  intro r s1
  cases op with
  | some n =>
    have hs1 : s1 = Cnt.count (I.read cb n s.src c).1.1.length { s with src := (I.read cb n s.src c).2.1 } := rfl
    have hr : r.1 = (I.read cb n s.src c).1.1.length := rfl
    rw [hs1, hr]
    obtain ⟨h1, h2, h3⟩ := count_calls (I.read cb n s.src c).1.1.length { s with src := (I.read cb n s.src c).2.1 }
    exact ⟨h1, by rw [h2, h1, count_src], h3⟩
  | none =>
    have hs1 : s1 = if (I.readByte cb s.src c).1.2 = none then Cnt.count 1 { s with src := (I.readByte cb s.src c).2.1 } else { s with src := (I.readByte cb s.src c).2.1 } := rfl
    have hr : r.1 = if (I.readByte cb s.src c).1.2 = none then 1 else 0 := rfl
    rw [hs1, hr]
    by_cases he : (I.readByte cb s.src c).1.2 = none
    · simp only [if_pos he]
      obtain ⟨h1, h2, h3⟩ := count_calls 1 { s with src := (I.readByte cb s.src c).2.1 }
      exact ⟨h1, by rw [h2, h1, count_src], h3⟩
    · simp only [if_neg he, Nat.add_zero]
      rw [if_neg (by omega), if_neg (by omega)]
      simp

/-- **C26 (over a window).** Where a seek source over the window `g` has its cursor at `o`, the counting source on top of it
says so, and says how long the window is. -/
theorem C26_tell_size (g : Geo) (s : CntSt seekSrcM) (o : Nat) (h : AtS g s.src o) :
    (countM seekSrcM).tell s = o ∧ (countM seekSrcM).size s = g.size := ⟨h.2.1, h.1.2.2.2⟩

/-- **C27 (when and what).** For every `SeekSource` and every sequence of `Read` and `ReadByte` calls, the callback runs after
exactly those calls that `throttle` selects (more than 128 KiB delivered since it last ran; with `throttle_gap` and
`throttle_fire` this bounds the gaps from both sides), once each, and it receives the absolute offset: the sum of the
section starts plus `Tell`. (`num`, what was delivered since, never exceeds the threshold: it starts at 0, C27_count_bound.) -/
theorem C27_when_and_what (I : SeekSrcM) {C : Type} (cb : Callback C) : ∀ (ops : List ReadOp) (s : CntSt I) (c : C),
    s.num ≤ 131072 →
    (readTrace I cb ops s c).1.map (fun x => x.2.1) =
      ((throttle 131072 s.num ((readTrace I cb ops s c).1.map (·.1))).zip ((readTrace I cb ops s c).1.map (·.2.2))).map
        (fun x => if x.1 then [x.2] else []) := by
  intro ops
  induction ops with
  | nil => intro s c _; rfl
  | cons op ops ih =>
    intro s c hs
    obtain ⟨h1, h2, h3⟩ := read_calls I cb op s c hs
    simp only [readTrace, List.map_cons, throttle]
    rw [ih _ _ (by rw [h3]; split <;> omega)]
    rw [h3]
    by_cases h : 131072 < s.num + (readOp I cb op s c).1
    · simp only [h, if_true] at h2 ⊢
      rw [h2]; simp
    · simp only [h, if_false] at h2 ⊢
      rw [h2]; simp

/-- **C27 (the count).** A new counting source has delivered nothing since the callback last ran, and read calls keep the count
below the threshold. -/
theorem C27_count_bound (I : SeekSrcM) {C : Type} (cb : Callback C) : (∀ src : I.St, (Cnt.new (I := I) src).num = 0) ∧
    ∀ (ops : List ReadOp) (s : CntSt I) (c : C), s.num ≤ 131072 → (readTrace I cb ops s c).2.1.num ≤ 131072 := by
  refine ⟨fun _ => rfl, ?_⟩
  intro ops
  induction ops with
  | nil => intro s c h; exact h
  | cons op ops ih =>
    intro s c hs
    obtain ⟨_, _, h3⟩ := read_calls I cb op s c hs
    exact ih _ _ (by rw [h3]; split <;> omega)

/-- **C27 (absolute through sections).** `Section(start, …)` on a counting source adds `start` to what the callback will
receive, forgets the partial count, and calls nothing. -/
theorem C27_section_base (I : SeekSrcM) (s t : CntSt I) (start sz : Int) (h : (countM I).section_ start sz s = .ok t) :
    t.base = s.base + start ∧ t.num = 0 ∧ t.calls = s.calls := by
  have h : Cnt.section_ start sz s = .ok t := h
  unfold Cnt.section_ at h
  split at h
  · cases h
  · cases h; exact ⟨rfl, rfl, rfl⟩

/-- The counting source over a window of a file whose callback reports absolute file offsets: the window's start equals
the accumulated base, if the outermost source starts at 0. -/
theorem C27_absolute (s t : CntSt seekSrcM) (start sz : Int) (h0 : s.base = s.src.sectionStart)
    (hov : 0 ≤ s.src.sectionStart ∧ s.src.sectionStart + start < 9223372036854775808 ∧ 0 ≤ start)
    (h : (countM seekSrcM).section_ start sz s = .ok t) : t.base = t.src.sectionStart := by
  have h : Cnt.section_ start sz s = .ok t := h
  unfold Cnt.section_ at h
  have hsec : seekSrcM.section_ start sz s.src = Seek.section_ start sz s.src := rfl
  rw [hsec] at h
  unfold Seek.section_ at h
  split at h
  · cases h
  · rename_i t' heq
    split at heq
    · cases heq
    split at heq
    · cases heq
    split at heq
    · cases heq
    cases heq
    cases h
    simp only [h0]
    have : wrap64 (s.src.sectionStart + start) = s.src.sectionStart + start := by unfold wrap64; omega
    rw [this]

/-- **C27 (monotone).** Reading forward over a seek source never makes the reported offsets go back: all callbacks
received during a sequence of `Read` and `ReadByte` calls are in non-decreasing order, and lie between the offset before and
after. -/
theorem C27_monotone (g : Geo) {C : Type} (cb : Callback C) : ∀ (ops : List ReadOp) (s : CntSt seekSrcM) (o : Nat) (c : C),
    AtS g s.src o → (∀ n, some n ∈ ops → 0 < n) → s.num ≤ 131072 →
    ∃ new o', AtS g (readTrace seekSrcM cb ops s c).2.1.src o' ∧ (readTrace seekSrcM cb ops s c).2.1.base = s.base ∧
      (readTrace seekSrcM cb ops s c).2.1.calls = s.calls ++ new ∧ new.Pairwise (· ≤ ·) ∧
      o ≤ o' ∧ ∀ x ∈ new, s.base + o ≤ x ∧ x ≤ s.base + o' := by
  intro ops
  induction ops with
  | nil => intro s o c h _ _; exact ⟨[], o, h, rfl, by simp [readTrace], List.Pairwise.nil, Nat.le_refl _, by simp⟩
  | cons op ops ih =>
    intro s o c h hn hs
    obtain ⟨h1, h2, h3⟩ := read_calls seekSrcM cb op s c hs
    have hstep : ∃ o1, o ≤ o1 ∧ AtS g (CntSt.src (readOp seekSrcM cb op s c).2.1) o1 := by
      cases op with
      | some n =>
        obtain ⟨bs, e, s', em, r1, _, _, _, _, _, r7, _⟩ := Seek.read_spec g cb s.src o n c h (hn n (by simp))
        refine ⟨o + bs.length, by omega, ?_⟩
        show AtS g (Cnt.count (I := seekSrcM) _ _).src _
        rw [count_src]
        show AtS g (Seek.read cb n s.src c).2.1 _
        rw [r1]; exact r7
      | none =>
        obtain ⟨x, e, s', em, r1, _, _, _, r⟩ := Seek.readByte_spec g cb s.src o c h
        have : CntSt.src (readOp seekSrcM cb none s c).2.1 = s' := by
          show CntSt.src (if _ then Cnt.count (I := seekSrcM) _ _ else _) = _
          have e1 : (Seek.readByte cb s.src c).2.1 = s' := by rw [r1]
          split
          · rw [count_src]; exact e1
          · exact e1
        rw [this]
        rcases r with ⟨_, _, r⟩ | ⟨_, _, r⟩ | ⟨_, _, _, _, _, _, _, r⟩
        · exact ⟨_, by omega, r⟩
        · exact ⟨_, by omega, r⟩
        · exact ⟨_, by omega, r⟩
    obtain ⟨o1, ho1, hat⟩ := hstep
    obtain ⟨new, o', g0, gb, g1, g2, g3, g4⟩ := ih _ _ (readOp seekSrcM cb op s c).2.2 hat
      (fun m hm => hn m (by simp [hm])) (by rw [h3]; split <;> omega)
    have htell : seekSrcM.tell (CntSt.src (readOp seekSrcM cb op s c).2.1) = ((o1 : Nat) : Int) := hat.2.1
    simp only [readTrace]
    rw [g1, h2, gb]
    rw [h1] at g4
    by_cases hc : 131072 < s.num + (readOp seekSrcM cb op s c).1
    · rw [if_pos hc]
      refine ⟨((readOp seekSrcM cb op s c).2.1.base + seekSrcM.tell (readOp seekSrcM cb op s c).2.1.src) :: new, o', g0, h1, by simp, ?_, by omega, ?_⟩
      · refine List.Pairwise.cons ?_ g2
        intro x hx
        rw [htell, h1]
        exact (g4 x hx).1
      · intro x hx
        rcases List.mem_cons.mp hx with hx | hx
        · rw [hx, htell, h1]; omega
        · have := g4 x hx; omega
    · rw [if_neg hc]
      refine ⟨new, o', g0, h1, by simp, g2, by omega, ?_⟩
      intro x hx
      have := g4 x hx; omega

/-- Non-vacuity: a counting source resumed at the start of a seek source. -/
example : ∃ s : CntSt seekSrcM, AtS ⟨[1, 2, 3], fun _ => .full, 0, 3⟩ s.src 1 ∧ s.base = s.src.sectionStart ∧ s.num ≤ 131072 :=
  ⟨{ Cnt.new (I := seekSrcM) { Seek.newWithSize ⟨[1, 2, 3], 1, fun _ => .full, 0⟩ 3 with br := some .fresh, offset := 1 } with num := 0 },
    ⟨⟨rfl, rfl, rfl, rfl⟩, rfl, by decide, .fresh, rfl, rfl, rfl, by simp [Bufio.fresh], by simp [Bufio.fresh]⟩, rfl, by decide⟩

/-- A counting source over a section that starts at byte 2 of a five-byte file. -/
def cntFive : CntSt seekSrcM :=
  { Cnt.new (I := seekSrcM) { Seek.newWithSize ⟨[1, 2, 3, 4, 5], 0, fun _ => .full, 0⟩ 3 with sectionStart := 2 } with
    base := 2, num := 1000, calls := [7] }

/-- Applied: the section from byte 1 of that section starts at byte 3 of the file, and so do its reports; the count of 1000
bytes is forgotten; no callback ran. -/
example : ∃ t, (countM seekSrcM).section_ 1 2 cntFive = .ok t ∧ (t.base = 2 + 1 ∧ t.num = 0 ∧ t.calls = [7]) ∧
    t.base = t.src.sectionStart ∧ t.src.sectionStart = 3 := by
  cases h : (countM seekSrcM).section_ 1 2 cntFive with
  | error e => exact absurd h (by nofun)
  | ok t =>
    refine ⟨t, rfl, C27_section_base seekSrcM cntFive t 1 2 h, C27_absolute cntFive t 1 2 rfl (by decide) h, ?_⟩
    exact (C27_absolute cntFive t 1 2 rfl (by decide) h).symm.trans (C27_section_base seekSrcM cntFive t 1 2 h).1

end Savior
