import Verif.SeekLemmas
import Verif.History
/-!
# Properties of seek sources (C14, C15, C16, C17, C18, C28)
-/

namespace Savior
open Seek

/-- The save consumer's log as seen by the caller. -/
abbrev ConsumerLog := List (Ckpt × Option Err)

/-- **C14.** For every content, every behaviour `sched` of the underlying reader (short reads, faults, EOF with data),
every window `start,size`, every save consumer and every sequence of calls, what the caller sees is a history of a
resumable cursor over the window's bytes; and whenever the cursor is at `o`, `Tell` is `o`. -/
theorem C14_seek_cursor (raw : List Byte) (sched : Nat → RsAct) (start size : Nat) (s : SeekSt)
    (hs : s.rs.content = raw ∧ s.rs.sched = sched ∧ s.sectionStart = start ∧ s.size = size)
    (answer : Nat → Option Err) (ops : List SrcOp) :
    ∃ sp', SpecRun ⟨(raw.drop start).take size, true, NoFault sched, True, True⟩ ⟨.fresh, []⟩
        (srcRun seekM answer ops s []).1 sp' ∧
      ∀ o, sp'.cur = .at o → Seek.tell (srcRun seekM answer ops s []).2.1 = o := by
  have h := run_spec (seekLawful ⟨raw, sched, start, size⟩) answer ops s [] ⟨.fresh, []⟩
    (Or.inl (seekLawfulByte _)) ⟨hs, rfl, by simp⟩
  obtain ⟨sp', h1, h2⟩ := h
  refine ⟨sp', h1, ?_⟩
  intro o ho
  unfold Corr at h2
  rw [ho] at h2
  exact h2.1.2.1

/-- The hypothesis of C14 is met by every constructor of the package. -/
example (buf : List Byte) : (fromBytes buf).rs.content = buf ∧ (fromBytes buf).sectionStart = 0 ∧
    (fromBytes buf).size = buf.length := ⟨rfl, rfl, rfl⟩

/-- A concrete history: two bytes, a save, a resume from it. -/
example : (srcRun seekM (fun _ => none)
      [.resumeNil, .setSSC true, .read 1, .wantSave, .read 0, .resumeCk 0, .read 3, .read 0] (fromBytes [10, 11, 12, 13]) []).1.map
      (fun x => match x.2 with | .data bs e em => some (bs, e, em) | _ => none) =
    [none, none, some ([10, 11], none, []), none, some ([12], none, [(2, none)]), none, some ([12, 13], none, []),
     some ([], some .eof, [])] := by rfl

/-- **C59.** What the three constructors stand for, in the sense of C14 (whatever is called afterwards): `FromBytes(buf)` for
`buf`, and it never fails; `NewWithSize(rs, n)` for the first `n` bytes of `rs`; `FromFile` for as much of the file as it was
large when opened. *If its size could not be determined, the error is lost and `FromFile` stands for nothing at all: the
source is empty.* -/
theorem C59_constructors (answer : Nat → Option Err) (ops : List SrcOp) :
    (∀ buf : List Byte, (fromBytes buf).size = buf.length ∧
      ∃ sp', SpecRun ⟨buf, true, True, True, True⟩ ⟨.fresh, []⟩ (srcRun seekM answer ops (fromBytes buf) []).1 sp') ∧
    (∀ (rs : Rs) (n : Nat), (newWithSize rs n).size = n ∧
      ∃ sp', SpecRun ⟨rs.content.take n, true, NoFault rs.sched, True, True⟩ ⟨.fresh, []⟩ (srcRun seekM answer ops (newWithSize rs n) []).1 sp') ∧
    (∀ (rs : Rs) (n : Nat), (fromFile rs (.ok n)).size = n ∧
      ∃ sp', SpecRun ⟨rs.content.take n, true, NoFault rs.sched, True, True⟩ ⟨.fresh, []⟩ (srcRun seekM answer ops (fromFile rs (.ok n)) []).1 sp') ∧
    (∀ (rs : Rs) (e : Err), (fromFile rs (.error e)).size = 0 ∧
      ∃ sp', SpecRun ⟨[], true, NoFault rs.sched, True, True⟩ ⟨.fresh, []⟩ (srcRun seekM answer ops (fromFile rs (.error e)) []).1 sp') := by
  refine ⟨fun buf => ⟨rfl, ?_⟩, fun rs n => ⟨rfl, ?_⟩, fun rs n => ⟨rfl, ?_⟩, fun rs e => ⟨rfl, ?_⟩⟩
  · obtain ⟨sp', h, _⟩ := C14_seek_cursor buf (fun _ => .full) 0 buf.length (fromBytes buf) ⟨rfl, rfl, rfl, rfl⟩ answer ops
    have e1 : ((buf.drop 0).take buf.length) = buf := by simp
    have e2 : NoFault (fun _ => RsAct.full) = True := eq_true (fun _ => rfl)
    rw [e1, e2] at h
    exact ⟨sp', h⟩
  · obtain ⟨sp', h, _⟩ := C14_seek_cursor rs.content rs.sched 0 n (newWithSize rs n) ⟨rfl, rfl, rfl, rfl⟩ answer ops
    exact ⟨sp', by simpa using h⟩
  · obtain ⟨sp', h, _⟩ := C14_seek_cursor rs.content rs.sched 0 n (fromFile rs (.ok n)) ⟨rfl, rfl, rfl, rfl⟩ answer ops
    exact ⟨sp', by simpa using h⟩
  · obtain ⟨sp', h, _⟩ := C14_seek_cursor rs.content rs.sched 0 0 (fromFile rs (.error e)) ⟨rfl, rfl, rfl, rfl⟩ answer ops
    exact ⟨sp', by simpa using h⟩

/-- A file of three bytes whose `Stat` fails reads as empty; one that was two bytes long when opened, as its first two. -/
example : ((srcRun seekM (fun _ => none) [.resumeNil, .read 9] (fromFile ⟨[1, 2, 3], 0, fun _ => .full, 0⟩ (.error .eof)) []).1.map
      fun x => match x.2 with | .data bs e _ => some (bs, e) | _ => none) = [none, some ([], some .eof)] ∧
    ((srcRun seekM (fun _ => none) [.resumeNil, .read 9, .read 9] (fromFile ⟨[1, 2, 3], 0, fun _ => .full, 0⟩ (.ok 2)) []).1.map
      fun x => match x.2 with | .data bs e _ => some (bs, e) | _ => none) = [none, some ([1, 2], none), some ([], some .eof)] := ⟨by rfl, by rfl⟩

/-- **C15 (success).** `Section(start,size)` is accepted exactly when the window fits (int64 sums that do not overflow). -/
theorem C15_section_accepts (s : SeekSt) (start sz : Int) (hov : start + sz < 9223372036854775808) :
    (∃ s', section_ start sz s = .ok s') ↔ 0 ≤ start ∧ 0 ≤ sz ∧ start + sz ≤ s.size := by
  unfold section_
  constructor
  · rintro ⟨s', h⟩
    split at h
    · cases h
    split at h
    · cases h
    split at h
    · cases h
    rename_i h1 h2 h3
    have : wrap64 (start + sz) = start + sz := by unfold wrap64; omega
    rw [this] at h3
    omega
  · rintro ⟨h1, h2, h3⟩
    have : wrap64 (start + sz) = start + sz := by unfold wrap64; omega
    rw [if_neg (by omega), if_neg (by omega), this, if_neg (by omega)]
    exact ⟨_, rfl⟩

/-- **C15 (content).** A section of a source that stands for the window `(b, n)` of `raw` stands for exactly the bytes
`[start, start+sz)` of that window. By C14 applied to the result, this is all it will ever deliver; sections of sections
follow by iterating. -/
theorem C15_section_window (raw : List Byte) (sched : Nat → RsAct) (b n : Nat) (s s' : SeekSt) (start sz : Int)
    (hs : s.rs.content = raw ∧ s.rs.sched = sched ∧ s.sectionStart = b ∧ s.size = n)
    (hov : start + sz < 9223372036854775808) (hov' : (b : Int) + n < 9223372036854775808)
    (h : section_ start sz s = .ok s') :
    (s'.rs.content = raw ∧ s'.rs.sched = sched ∧ s'.sectionStart = ((b + start.toNat : Nat) : Int) ∧
      s'.size = ((sz.toNat : Nat) : Int)) ∧
    (raw.drop (b + start.toNat)).take sz.toNat = (((raw.drop b).take n).drop start.toNat).take sz.toNat := by
  have hacc := (C15_section_accepts s start sz hov).mp ⟨s', h⟩
  have hw : wrap64 (start + sz) = start + sz := by unfold wrap64; omega
  unfold section_ at h
  rw [if_neg (by omega), if_neg (by omega), hw, if_neg (by omega)] at h
  simp at h
  subst h
  have hz : s.size = n := hs.2.2.2
  refine ⟨⟨hs.1, hs.2.1, ?_, ?_⟩, ?_⟩
  · simp only [hs.2.2.1]
    have : wrap64 ((b : Int) + start) = b + start := by unfold wrap64; omega
    rw [this]; omega
  · simp only []; omega
  · rw [List.drop_take, List.take_take, List.drop_drop, Nat.min_eq_left (by omega)]

/-- Sections of sections to any depth: `(start₁,size₁), (start₂,size₂), …`. -/
def sections : List (Int × Int) → SeekSt → Except Err SeekSt
  | [], s => .ok s
  | (a, z) :: l, s => match section_ a z s with
    | .error e => .error e
    | .ok s' => sections l s'

/-- The bytes a nesting of windows selects. -/
def windows : List (Int × Int) → List Byte → List Byte
  | [], bs => bs
  | (a, z) :: l, bs => windows l ((bs.drop a.toNat).take z.toNat)

/-- **C15.** Sections nested to any depth: whatever the calls, the caller sees a cursor over exactly the nested window's
bytes. -/
theorem C15_sections_cursor (raw : List Byte) (sched : Nat → RsAct) (n : Nat) (hn : (n : Int) < 9223372036854775808) :
    ∀ (secs : List (Int × Int)) (b m : Nat) (s s' : SeekSt) (answer : Nat → Option Err) (ops : List SrcOp),
    s.rs.content = raw ∧ s.rs.sched = sched ∧ s.sectionStart = b ∧ s.size = m → b + m ≤ n →
    (∀ p ∈ secs, p.1 + p.2 < 9223372036854775808) → sections secs s = .ok s' →
    ∃ sp', SpecRun ⟨windows secs ((raw.drop b).take m), true, NoFault sched, True, True⟩ ⟨.fresh, []⟩
        (srcRun seekM answer ops s' []).1 sp' := by
  intro secs
  induction secs with
  | nil =>
    intro b m s s' answer ops hs _ _ h
    simp [sections] at h
    subst h
    obtain ⟨sp', h1, _⟩ := C14_seek_cursor raw sched b m s hs answer ops
    exact ⟨sp', h1⟩
  | cons p l ih =>
    obtain ⟨a, z⟩ := p
    intro b m s s' answer ops hs hbm hov h
    simp only [sections] at h
    cases hsec : section_ a z s with
    | error e => rw [hsec] at h; cases h
    | ok s1 =>
      rw [hsec] at h
      have ha : a + z < 9223372036854775808 := hov (a, z) (by simp)
      obtain ⟨h1, h2⟩ := C15_section_window raw sched b m s s1 a z hs ha (by omega) hsec
      have hacc := (C15_section_accepts s a z ha).mp ⟨s1, hsec⟩
      rw [hs.2.2.2] at hacc
      have := ih (b + a.toNat) z.toNat s1 s' answer ops h1 (by omega) (fun p hp => hov p (by simp [hp])) h
      rw [h2] at this
      exact this

example : ∃ s', sections [(1, 4), (1, 2)] (fromBytes [1, 2, 3, 4, 5, 6]) = .ok s' ∧
    windows [(1, 4), (1, 2)] [1, 2, 3, 4, 5, 6] = [3, 4] := ⟨_, rfl, rfl⟩

/-- **C15 fails at int64 overflow**: a window of 2^63-1 bytes starting at 1 is accepted on a 4-byte source. -/
theorem C15_overflow_accepted : ∃ s', section_ 1 9223372036854775807 (fromBytes [1, 2, 3, 4]) = .ok s' := ⟨_, rfl⟩

/-- **C15, exactly.** Over all int64 arguments: accepted are the windows that fit and, besides, all those whose end is not an
int64 at all. -/
theorem C15_accepts_exactly (s : SeekSt) (start sz : Int) (hs : 0 ≤ s.size) (h1 : start < 9223372036854775808) (h2 : sz < 9223372036854775808) :
    (∃ s', section_ start sz s = .ok s') ↔ 0 ≤ start ∧ 0 ≤ sz ∧ (start + sz ≤ s.size ∨ 9223372036854775808 ≤ start + sz) := by
  by_cases hov : start + sz < 9223372036854775808
  · rw [C15_section_accepts s start sz hov]; omega
  · have hw : wrap64 (start + sz) = start + sz - 18446744073709551616 := by unfold wrap64; omega
    unfold section_
    constructor
    · rintro ⟨s', h⟩
      split at h
      · cases h
      split at h
      · cases h
      omega
    · rintro ⟨a, b, _⟩
      rw [if_neg (by omega), if_neg (by omega), hw, if_neg (by omega)]
      exact ⟨_, rfl⟩

/-- **C16 (seek).** A source that was never resumed refuses to be read, whatever `WantSave`/`SetSourceSaveConsumer` calls
came before. -/
theorem C16_seek_uninit (rs : Rs) (size : Int) (pre : List SrcOp) (hpre : ∀ op ∈ pre, op = .wantSave ∨ ∃ b, op = .setSSC b)
    (answer : Nat → Option Err) {C : Type} (cb : Callback C) (n : Nat) (c : C) :
    let s := (srcRun seekM answer pre (newWithSize rs size) []).2.1
    seekM.read cb n s c = (([], some (.wrapped .uninit)), s, c) ∧
    seekM.readByte cb s c = ((0, some (.wrapped .uninit)), s, c) := by
  have key : ∀ (pre : List SrcOp) (s : SeekSt) (log), (∀ op ∈ pre, op = .wantSave ∨ ∃ b, op = .setSSC b) → s.br = none →
      ((srcRun seekM answer pre s log).2.1 : SeekSt).br = none := by
    intro pre
    induction pre with
    | nil => intro s log _ h; exact h
    | cons op l ih =>
      intro s log h1 h2
      simp only [srcRun]
      rcases h1 op (by simp) with h | ⟨b, h⟩
      · subst h; exact ih _ _ (fun o ho => h1 o (by simp [ho])) h2
      · subst h; exact ih _ _ (fun o ho => h1 o (by simp [ho])) h2
  have hb := key pre (newWithSize rs size) [] hpre rfl
  intro s
  have hb : s.br = none := hb
  constructor
  · show Seek.read cb n s c = _
    unfold Seek.read; simp only [hb]; rfl
  · show Seek.readByte cb s c = _
    unfold Seek.readByte; simp only [hb]; rfl

/-- **C17 (the part that holds).** A checkpoint with a negative offset is refused by `Resume`, which changes nothing. -/
theorem C17_negative_partial (s : SeekSt) (ck : Ckpt) (h : ck.offset < 0) :
    seekM.resume (some ck) s = (.error .negativeOffset, s) := by
  show Seek.resume (some ck) s = _
  simp [Seek.resume, h]

/-- **C17 (the part that holds), continued.** A checkpoint at the very end is accepted and reads report EOF. -/
theorem C17_at_end_partial (g : Geo) (s s' : SeekSt) (hs : GoodS g s) (hfull : g.start + g.size ≤ g.raw.length)
    (h : seekM.resume (some (.plain g.size)) s = (.ok g.size, s')) {C : Type} (cb : Callback C) (n : Nat) (c : C) :
    seekM.read cb (n + 1) s' c = (([], some .eof), s', c) ∧ seekM.readByte cb s' c = ((0, some .eof), s', c) := by
  have hl : g.stream.length = g.size := by rw [stream_length]; omega
  rcases resume_ck_spec g s (.plain g.size) g.size hs ⟨rfl, by omega⟩ with ⟨s1, h1, h2, _⟩ | ⟨e, s1, h1, _⟩
  · have h : Seek.resume (some (.plain g.size)) s = (.ok g.size, s') := h
    rw [h1] at h
    simp at h
    subst h
    obtain ⟨h3, h4, h5, b, h6, h7⟩ := h2
    constructor
    · show Seek.read cb (n + 1) s1 c = _
      unfold Seek.read
      simp [h6, h4, h3.2.2.2]
    · show Seek.readByte cb s1 c = _
      unfold Seek.readByte
      simp [h6, h4, h3.2.2.2]
  · have h : Seek.resume (some (.plain g.size)) s = (.ok g.size, s') := h
    rw [h1] at h; simp at h

example : ∃ s', seekM.resume (some (.plain 3)) (fromBytes [1, 2, 3]) = (.ok 3, s') := ⟨_, rfl⟩

/-- **C17 is false.** An offset beyond the end is accepted by `Resume`; `Read` then panics (slice bound out of range). -/
theorem C17_false_read_panics : ∃ s', seekM.resume (some (.plain 5)) (fromBytes [1, 2, 3]) = (.ok 5, s') ∧
    (seekM.read (fun _ (c : Unit) => (c, none)) 4 s' ()).1 = ([], some .panic) := ⟨_, rfl, rfl⟩

/-- **C17 is false.** On a section, `ReadByte` after such a resume returns a byte from outside the section. -/
theorem C17_false_readByte_outside : ∃ sec s', section_ 0 2 (fromBytes [1, 2, 3, 4]) = .ok sec ∧
    seekM.resume (some (.plain 3)) sec = (.ok 3, s') ∧
    (seekM.readByte (fun _ (c : Unit) => (c, none)) s' ()).1 = (4, none) := ⟨_, _, rfl, rfl, rfl⟩

/-- **C17, exactly.** For every window and every offset `o` beyond its end: unless the underlying `Seek` fails, `Resume` accepts
`o`; every non-empty `Read` then panics, having asked the consumer for nothing; and `ReadByte`, if the underlying reader does
not fail, returns whatever byte of the underlying file follows the window at distance `o` — or EOF where the file has none. So
the property fails for *every* such offset, not only for some. -/
theorem C17_false_everywhere (g : Geo) (s : SeekSt) (o : Nat) (hs : GoodS g s) (hnf : NoFault g.sched) (ho : g.size < o) :
    ∃ s', seekM.resume (some (.plain o)) s = (.ok o, s') ∧
      ∀ {C : Type} (cb : Callback C) (c : C),
        (∀ n, seekM.read cb (n + 1) s' c = (([], some .panic), s', c)) ∧
        (∀ b, g.raw[g.start + o]? = some b → (seekM.readByte cb s' c).1 = (b, none)) ∧
        (g.raw[g.start + o]? = none → (seekM.readByte cb s' c).1.2 = some .eof) := by
  obtain ⟨h1, h2, h3, h4⟩ := hs
  have hf : (s.rs.sched s.rs.tick).fault = none := by
    have := hnf s.rs.tick
    rw [← h2] at this
    exact this
  have hneg : ¬ (s.sectionStart + (o : Int) < 0) := by rw [h3]; omega
  refine ⟨{ s with offset := o, rs := { s.rs with pos := (s.sectionStart + (o : Int)).toNat, tick := s.rs.tick + 1 },
                   br := some .fresh }, ?_, ?_⟩
  · show Seek.resume (some (.plain o)) s = _
    have hneg' : ¬ ((o : Int) < 0) := by omega
    simp only [Seek.resume, Seek.resume.go, Ckpt.offset, hneg', if_false, Rs.seek, hf, hneg]
    rfl
  intro C cb c
  obtain ⟨s', hs'⟩ : ∃ s' : SeekSt, s' = { s with offset := o, rs := { s.rs with pos := (s.sectionStart + (o : Int)).toNat, tick := s.rs.tick + 1 }, br := some .fresh } := ⟨_, rfl⟩
  rw [← hs']
  have eb : s'.br = some .fresh := by rw [hs']
  have eo : s'.offset = o := by rw [hs']
  have ez : s'.size = g.size := by rw [hs']; exact h4
  have hinv : BufInv g.sched .fresh s'.rs (g.raw.drop (g.start + o)) := by
    refine ⟨?_, by rw [hs']; exact h2, by simp [Bufio.fresh], by simp [Bufio.fresh]⟩
    rw [hs']
    simp only [Bufio.fresh, List.nil_append]
    rw [h1, h3]
    congr 1
  have key : ∃ x e, (Seek.readByte cb s' c).1 = (x, e) ∧
      ((e = none ∧ ∃ r, g.raw.drop (g.start + o) = x :: r) ∨ (e = some .eof ∧ g.raw.drop (g.start + o) = [])) := by
    have hw : (handleSave cb s' c).1.br = some .fresh ∧ (handleSave cb s' c).1.rs = s'.rs := by
      unfold handleSave
      split
      · exact ⟨eb, rfl⟩
      · exact ⟨eb, rfl⟩
    obtain ⟨x, e, b', rs', hr, _, hcase⟩ := bufio_readByte_spec g.sched .fresh s'.rs _ hinv
    refine ⟨x, e, ?_, ?_⟩
    · unfold Seek.readByte
      rw [eb]
      simp only []
      rw [if_neg (by omega), hw.1]
      simp only []
      rw [hw.2, hr]
    · rcases hcase with ⟨h, r, hr, _⟩ | ⟨h, hr, _⟩ | ⟨y, _, _, hn, _⟩
      · exact Or.inl ⟨h, r, hr⟩
      · exact Or.inr ⟨h, hr⟩
      · exact absurd hnf hn
  obtain ⟨x, e, hx, hcase⟩ := key
  have hget : g.raw[g.start + o]? = (g.raw.drop (g.start + o)).head? := by simp [List.head?_drop]
  refine ⟨fun n => ?_, fun b hb => ?_, fun hn => ?_⟩
  · show Seek.read cb (n + 1) s' c = _
    unfold Seek.read
    rw [eb]
    simp only []
    rw [if_neg (by omega), if_neg (by omega), if_pos (by constructor <;> omega)]
    rfl
  · show (Seek.readByte cb s' c).1 = _
    rw [hget] at hb
    rcases hcase with ⟨h, r, hr⟩ | ⟨h, hr⟩
    · rw [hr] at hb
      cases hb
      rw [hx, h]
    · rw [hr] at hb; cases hb
  · show (Seek.readByte cb s' c).1.2 = _
    rw [hget] at hn
    rcases hcase with ⟨h, r, hr⟩ | ⟨h, hr⟩
    · rw [hr] at hn; cases hn
    · rw [hx, h]

/-- Both cases of `ReadByte` occur: the byte after a two-byte window of four bytes, and nothing. -/
example : GoodS ⟨[1, 2, 3, 4], fun _ => .full, 0, 2⟩ (newWithSize ⟨[1, 2, 3, 4], 0, fun _ => .full, 0⟩ 2) ∧
    NoFault (fun _ => RsAct.full) ∧ ([1, 2, 3, 4] : List Byte)[0 + 3]? = some 4 ∧ ([1, 2, 3, 4] : List Byte)[0 + 9]? = none :=
  ⟨⟨rfl, rfl, rfl, rfl⟩, fun _ => rfl, rfl, rfl⟩

/-- **C18 (one checkpoint, exact, before any byte).** On a resumed seek source with the cursor at `o` before the end, a
consumer registered and a save requested: the next `Read` hands the consumer exactly one checkpoint, with `Offset = o`;
afterwards no request is pending. -/
theorem C18_save_once (g : Geo) (s : SeekSt) (o : Nat) (h : AtS g s o) (hend : o < g.size) (hssc : s.hasSSC = true)
    {C : Type} (cb : Callback C) (n : Nat) (c : C) :
    (seekM.read cb (n + 1) (seekM.wantSave s) c).2.2 = (cb (.plain o) c).1 ∧
    (seekM.readByte cb (seekM.wantSave s) c).2.2 = (cb (.plain o) c).1 ∧
    ((seekM.read cb (n + 1) (seekM.wantSave s) c).2.1 : SeekSt).wantSave = false ∧
    ((seekM.readByte cb (seekM.wantSave s) c).2.1 : SeekSt).wantSave = false := by
  have h' : AtS g { s with wantSave := true } o := h
  have hem : emitted { s with wantSave := true } = some (.plain o) := by
    simp [emitted, hssc, h.2.1]
  obtain ⟨bs, e, s', em, h1, h2, h3, h4, _⟩ := read_spec g cb _ o (n + 1) c h' (by omega)
  obtain ⟨b, e2, s2, em2, k1, k2, k3, k4, _⟩ := readByte_spec g cb _ o c h'
  rw [if_neg (by omega), hem] at h2 k2
  rw [if_neg (by omega)] at h4 k4
  subst h2 k2
  refine ⟨?_, ?_, ?_, ?_⟩
  · show (Seek.read cb (n + 1) { s with wantSave := true } c).2.2 = _
    rw [h1]; rfl
  · show (Seek.readByte cb { s with wantSave := true } c).2.2 = _
    rw [k1]; rfl
  · show (Seek.read cb (n + 1) { s with wantSave := true } c).2.1.wantSave = _
    rw [h1]; exact h4
  · show (Seek.readByte cb { s with wantSave := true } c).2.1.wantSave = _
    rw [k1]; exact k4

/-- **C18 (no other checkpoints).** Without a pending request, any number of reads emits nothing. -/
theorem C18_no_spurious (g : Geo) {C : Type} (cb : Callback C) : ∀ (ns : List Nat) (s : SeekSt) (o : Nat) (c : C),
    AtS g s o → s.wantSave = false →
    (ns.foldl (fun (p : SeekSt × C) n => let r := seekM.read cb (n + 1) p.1 p.2; (r.2.1, r.2.2)) (s, c)).2 = c := by
  intro ns
  induction ns with
  | nil => intros; rfl
  | cons n ns ih =>
    intro s o c h hw
    obtain ⟨bs, e, s', em, h1, h2, h3, h4, h5, h6, h7, h8⟩ := read_spec g cb s o (n + 1) c h (by omega)
    have hem : em = none := by rw [h2]; exact emitted_quiet g s o hw
    subst hem
    have h1' : seekM.read cb (n + 1) s c = ((bs, e), s', c) := h1
    simp only [List.foldl_cons, h1']
    refine ih s' _ c h7 ?_
    rw [h4]; split <;> simp [hw]

example : ∃ s o, AtS ⟨[1, 2, 3], fun _ => .full, 0, 3⟩ s o ∧ o < 3 ∧ s.hasSSC = true :=
  ⟨{ newWithSize ⟨[1, 2, 3], 1, fun _ => .full, 0⟩ 3 with br := some .fresh, offset := 1, hasSSC := true }, 1,
    ⟨⟨rfl, rfl, rfl, rfl⟩, rfl, by decide, .fresh, rfl, rfl, rfl, by simp [Bufio.fresh], by simp [Bufio.fresh]⟩, by decide, rfl⟩

/-- `Read` on a seek source whose save consumer re-enters: the callback itself calls `Resume` on the source with the
checkpoint it was just given (as checker/sourcetester.go:46-67 does), then the read goes on
(seeksource.go:125-146 with `ss.ssc.Save` calling back into `Resume`). -/
def readReentrant (n : Nat) (ss : SeekSt) : ReadRes × SeekSt :=
  match ss.br with
  | none => (([], some (.wrapped .uninit)), ss)
  | some _ =>
    if n = 0 then (([], none), ss)
    else
      let remaining := ss.size - ss.offset
      if remaining = 0 then (([], some .eof), ss)
      else if (n : Int) > remaining ∧ remaining < 0 then (([], some .panic), ss)
      else
        let n' := if (n : Int) > remaining then remaining.toNat else n
        let s1 : SeekSt :=
          if ss.wantSave then
            let s0 := { ss with wantSave := false }
            if ss.hasSSC then (Seek.resume (some (.plain ss.offset)) s0).2 else s0
          else ss
        match s1.br with
        | none => (([], some .panic), s1)
        | some b =>
          let r := b.read s1.rs n'
          ((r.1.1, r.1.2), { s1 with br := some r.2.1, rs := r.2.2, offset := s1.offset + r.1.1.length })

/-- **C18 (re-entrancy).** Resuming inside the callback from the checkpoint just received does not disturb the stream: the
read still returns the bytes at the cursor, and the cursor ends right behind them (in an environment that does not
fail). -/
theorem C18_reentrant (g : Geo) (hnf : NoFault g.sched) (s : SeekSt) (o n : Nat) (h : AtS g s o) (hn : 0 < n) :
    ∃ bs e s', readReentrant n s = ((bs, e), s') ∧ bs = (g.stream.drop o).take bs.length ∧ bs.length ≤ n ∧
      AtS g s' (o + bs.length) ∧
      ((e = none ∧ bs ≠ []) ∨ (e = some .eof ∧ o + bs.length = g.stream.length)) := by
  by_cases hw : s.wantSave = true ∧ s.hasSSC = true
  · -- the re-entrant resume leaves a source at the same cursor; then it is an ordinary read
    have h0 : AtS g { s with wantSave := false } o := h
    rcases resume_ck_spec g { s with wantSave := false } (.plain s.offset) o h0.1 ⟨by rw [h.2.1], h.2.2.1⟩ with
      ⟨s1, h1, h2, h3, h4⟩ | ⟨e, s1, h1, h2, _⟩
    · obtain ⟨b1, hb1, hinv1⟩ := h2.2.2.2
      obtain ⟨bs, e, s', em, r1, r2, r3, r4, r5, r6, r7, r8⟩ :=
        read_spec g (fun _ (c : Unit) => (c, none)) s1 o n () h2 hn
      have heq : readReentrant n s = (if s.size - s.offset = 0 then (([], some .eof), s) else
          ((Seek.read (fun _ (c : Unit) => (c, none)) n s1 ()).1, (Seek.read (fun _ (c : Unit) => (c, none)) n s1 ()).2.1)) := by
        obtain ⟨b, hb, _⟩ := h.2.2.2
        have hsz : s1.size = s.size := by rw [h2.1.2.2.2, h.1.2.2.2]
        have hof : s1.offset = s.offset := by rw [h2.2.1, h.2.1]
        have hw1 : s1.wantSave = false := h4
        unfold readReentrant Seek.read
        rw [hb] at h1
        rw [hb]; simp only []
        rw [if_pos hw.1, if_pos hw.2, h1]
        simp only [hb1, hsz, hof, handleSave, hw1]
        rw [if_neg (by omega : ¬ n = 0), if_neg (by omega : ¬ n = 0)]
        by_cases hz : s.size - s.offset = 0
        · simp [hz]
        · simp only [hz, if_false]
          have hc : ¬ ((n : Int) > s.size - s.offset ∧ s.size - s.offset < 0) := by
            have := h.2.2.1
            rw [stream_length] at this
            rw [h.1.2.2.2, h.2.1]; omega
          rw [if_neg hc, if_neg hc]
          simp [hb1, hof]; exact ⟨hw1, hsz.symm⟩
      by_cases hz : s.size - s.offset = 0
      · rw [if_pos hz] at heq
        refine ⟨[], _, s, heq, by simp, by simp, by simpa using h, Or.inr ⟨rfl, ?_⟩⟩
        have := h.2.2.1
        rw [stream_length] at this ⊢
        rw [h.1.2.2.2, h.2.1] at hz
        simp; omega
      · rw [if_neg hz, r1] at heq
        refine ⟨bs, e, s', heq, r6, r5, r7, ?_⟩
        rcases r8 with ⟨a, b⟩ | ⟨a, b, _⟩ | ⟨x, _, _, _, _, _, hx⟩
        · exact Or.inl ⟨a, b⟩
        · exact Or.inr ⟨a, b⟩
        · exact absurd hnf hx
    · exact absurd hnf h2
  · obtain ⟨bs, e, s', em, r1, r2, r3, r4, r5, r6, r7, r8⟩ :=
      read_spec g (fun _ (c : Unit) => (c, none)) s o n () h hn
    have heq : readReentrant n s = ((Seek.read (fun _ (c : Unit) => (c, none)) n s ()).1,
        (Seek.read (fun _ (c : Unit) => (c, none)) n s ()).2.1) := by
      unfold readReentrant Seek.read
      obtain ⟨b, hb, _⟩ := h.2.2.2
      simp only [hb, handleSave]
      rw [if_neg (by omega : ¬ n = 0), if_neg (by omega : ¬ n = 0)]
      by_cases hz : s.size - s.offset = 0
      · simp [hz]
      · simp only [hz, if_false]
        split
        · rfl
        · cases hws : s.wantSave with
          | false => simp [hb]
          | true =>
            cases hss : s.hasSSC with
            | false => simp [hb]
            | true => exact absurd ⟨hws, hss⟩ hw
    rw [r1] at heq
    refine ⟨bs, e, s', heq, r6, r5, r7, ?_⟩
    rcases r8 with ⟨a, b⟩ | ⟨a, b, _⟩ | ⟨x, _, _, _, _, _, hx⟩
    · exact Or.inl ⟨a, b⟩
    · exact Or.inr ⟨a, b⟩
    · exact absurd hnf hx

/-- **C28 (seek).** With the cursor at `o`, `Progress` is `o/size` (`0` for an empty stream): between 0 and 1, growing
with the cursor, and 1 exactly at the end of a non-empty window. (As a fraction; float64 rounding is not modelled.) -/
theorem C28_seek_progress (g : Geo) (s : SeekSt) (o : Nat) (h : AtS g s o) :
    seekM.progress s = (if g.size = 0 then (0, 1) else ((o : Int), (g.size : Int))) ∧
    0 ≤ (seekM.progress s).1 ∧ (seekM.progress s).1 ≤ (seekM.progress s).2 ∧ 0 < (seekM.progress s).2 ∧
    ((seekM.progress s).1 = (seekM.progress s).2 ↔ 0 < g.size ∧ o = g.size) := by
  have hp : seekM.progress s = (if g.size = 0 then (0, 1) else ((o : Int), (g.size : Int))) := by
    show Seek.progress s = _
    unfold Seek.progress
    rw [h.1.2.2.2, h.2.1]
    by_cases hz : g.size = 0
    · simp [hz]
    · rw [if_pos (by omega), if_neg hz]
  have hle : o ≤ g.size := by have := h.2.2.1; rw [stream_length] at this; omega
  rw [hp]
  refine ⟨rfl, ?_⟩
  by_cases hz : g.size = 0
  · simp [hz]
  · simp only [hz, if_false]
    omega

/-- **C28 (seek), monotone.** A read never decreases progress. -/
theorem C28_seek_progress_mono (g : Geo) (s : SeekSt) (o : Nat) (h : AtS g s o) {C : Type} (cb : Callback C) (n : Nat) (c : C) :
    (seekM.progress s).1 * (seekM.progress (seekM.read cb (n + 1) s c).2.1).2 ≤
      (seekM.progress (seekM.read cb (n + 1) s c).2.1).1 * (seekM.progress s).2 := by
  obtain ⟨bs, e, s', em, h1, _, _, _, _, _, h7, _⟩ := read_spec g cb s o (n + 1) c h (by omega)
  have hr : (seekM.read cb (n + 1) s c).2.1 = s' := by
    show (Seek.read cb (n + 1) s c).2.1 = s'
    rw [h1]
  rw [hr, (C28_seek_progress g s o h).1, (C28_seek_progress g s' _ h7).1]
  split
  · simp
  · apply Int.mul_le_mul_of_nonneg_right
    · simp only []; omega
    · simp

/-- A seek source over the middle four of six bytes, at offset 1 of them, with a save consumer. -/
def midSt : SeekSt :=
  { newWithSize ⟨[9, 1, 2, 3, 4, 9], 2, fun _ => .full, 0⟩ 4 with sectionStart := 1, br := some .fresh, offset := 1, hasSSC := true }

theorem midSt_at : AtS ⟨[9, 1, 2, 3, 4, 9], fun _ => .full, 1, 4⟩ midSt 1 :=
  ⟨⟨rfl, rfl, rfl, rfl⟩, rfl, by decide, .fresh, rfl, rfl, rfl, by simp [Bufio.fresh], by simp [Bufio.fresh]⟩

/-- C15 applied: of the four-byte section, "from 1, two bytes" is accepted and "from 3, two bytes" is not; the accepted one
shows bytes 2 and 3 of the file's bytes counted from 0 at its second. -/
example : (∃ s', section_ 1 2 midSt = .ok s') ∧ (¬ ∃ s', section_ 3 2 midSt = .ok s') ∧
    (∀ s', section_ 1 2 midSt = .ok s' → s'.sectionStart = 2 ∧ s'.size = 2) := by
  refine ⟨(C15_section_accepts midSt 1 2 (by decide)).mpr (by decide), fun h => ?_, fun s' h => ?_⟩
  · exact absurd ((C15_accepts_exactly midSt 3 2 (by decide) (by decide) (by decide)).mp h) (by decide)
  · have := C15_section_window [9, 1, 2, 3, 4, 9] (fun _ => .full) 1 4 midSt s' 1 2 ⟨rfl, rfl, rfl, rfl⟩ (by decide) (by decide) h
    exact ⟨this.1.2.2.1, this.1.2.2.2⟩

/-- C15 applied to nested sections. -/
example (answer : Nat → Option Err) (ops : List SrcOp) (s' : SeekSt) (h : sections [(0, 3), (1, 2)] midSt = .ok s') :
    ∃ sp', SpecRun ⟨[2, 3], true, NoFault fun _ => .full, True, True⟩ ⟨.fresh, []⟩ (srcRun seekM answer ops s' []).1 sp' :=
  C15_sections_cursor [9, 1, 2, 3, 4, 9] (fun _ => .full) 6 (by decide) [(0, 3), (1, 2)] 1 4 midSt s' answer ops
    ⟨rfl, rfl, rfl, rfl⟩ (by decide) (by decide) h

/-- C17 applied: a negative checkpoint offset. -/
example : seekM.resume (some (.plain (-1))) midSt = (.error .negativeOffset, midSt) := C17_negative_partial midSt (.plain (-1)) (by decide)

/-- C17 applied: resumed at the end of the section, although the file goes on. -/
example (s' : SeekSt) (h : seekM.resume (some (.plain 4)) midSt = (.ok 4, s')) {C : Type} (cb : Callback C) (c : C) :
    seekM.read cb (9 + 1) s' c = (([], some .eof), s', c) ∧ seekM.readByte cb s' c = ((0, some .eof), s', c) :=
  C17_at_end_partial ⟨[9, 1, 2, 3, 4, 9], fun _ => .full, 1, 4⟩ midSt s' midSt_at.1 (by decide) h cb 9 c

/-- C18 applied: the request is served once, with offset 1, by the next read; without it nothing is saved. -/
example {C : Type} (cb : Callback C) (c : C) :
    (seekM.read cb (0 + 1) (seekM.wantSave midSt) c).2.2 = (cb (.plain 1) c).1 ∧
    ((seekM.read cb (0 + 1) (seekM.wantSave midSt) c).2.1 : SeekSt).wantSave = false :=
  have h := C18_save_once _ midSt 1 midSt_at (by decide) rfl cb 0 c
  ⟨h.1, h.2.2.1⟩

example {C : Type} (cb : Callback C) (c : C) := C18_no_spurious _ cb [1, 2, 3] midSt 1 c midSt_at rfl

/-- C18 applied: a callback that asks again from inside the save. -/
example : ∃ bs e s', readReentrant 2 midSt = ((bs, e), s') ∧ bs = (([1, 2, 3, 4] : List Byte).drop 1).take bs.length ∧ bs.length ≤ 2 ∧
    AtS ⟨[9, 1, 2, 3, 4, 9], fun _ => .full, 1, 4⟩ s' (1 + bs.length) ∧
    ((e = none ∧ bs ≠ []) ∨ (e = some .eof ∧ 1 + bs.length = 4)) :=
  C18_reentrant _ (fun _ => rfl) midSt 1 2 midSt_at (by decide)

/-- C28 applied: progress 1/4 there, and no less after a read. -/
example {C : Type} (cb : Callback C) (c : C) : seekM.progress midSt = (1, 4) ∧
    (seekM.progress midSt).1 * (seekM.progress (seekM.read cb (1 + 1) midSt c).2.1).2 ≤
      (seekM.progress (seekM.read cb (1 + 1) midSt c).2.1).1 * (seekM.progress midSt).2 :=
  ⟨(C28_seek_progress _ midSt 1 midSt_at).1, C28_seek_progress_mono _ midSt 1 midSt_at cb 1 c⟩

end Savior
