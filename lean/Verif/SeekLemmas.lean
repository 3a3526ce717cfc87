import Verif.SeekSource
/-!
# seeksource is a lawful source: helper lemmas
-/

namespace Savior

/-- The bytes a seek source with this underlying content, section start and size stands for. -/
def window (raw : List Byte) (start size : Nat) : List Byte := (raw.drop start).take size

namespace Seek

theorem rs_read_spec (rs : Rs) (k : Nat) (hk : 0 < k) :
    ∃ out e rs', rs.read k = ((out, e), rs') ∧ rs'.content = rs.content ∧ rs'.sched = rs.sched ∧
      out ++ rs'.content.drop rs'.pos = rs.content.drop rs.pos ∧ out.length ≤ k ∧
      (e = none → out ≠ []) ∧
      (e = some .eof → rs'.content.drop rs'.pos = [] ∧ (LazySched rs.sched → out = [])) ∧
      (∀ x, e = some x → x ≠ .eof → ¬ NoFault rs.sched ∧ x ≠ .panic ∧ x ≠ .diverge ∧
        x ≠ .readyToSave) := by
  cases hf : (rs.sched rs.tick).fault with
  | some code =>
    obtain ⟨m, hm⟩ : ∃ m, m = min k (rs.sched rs.tick).give := ⟨_, rfl⟩
    have hr : rs.read k = (((rs.content.drop rs.pos).take m, some (.fault code)),
        { rs with pos := rs.pos + ((rs.content.drop rs.pos).take m).length, tick := rs.tick + 1 }) := by
      simp only [Rs.read, hf, ← hm]
    refine ⟨_, _, _, hr, rfl, rfl, ?_, by rw [List.length_take]; omega, by simp, by simp, ?_⟩
    · simp only []
      rw [← List.drop_drop]
      by_cases h : m ≤ (rs.content.drop rs.pos).length
      · rw [List.length_take, Nat.min_eq_left h, List.take_append_drop]
      · rw [List.take_of_length_le (by omega)]
        simp
        omega
    intro x hx hne
    simp at hx
    subst hx
    refine ⟨?_, by simp, by simp, by simp⟩
    intro hn
    have := hn rs.tick
    simp [hf] at this
  | none =>
    by_cases he : (rs.content.drop rs.pos) = []
    · have hr : rs.read k = (([], some .eof), { rs with tick := rs.tick + 1 }) := by
        simp [Rs.read, hf, he]
      refine ⟨_, _, _, hr, rfl, rfl, by simp, by simp, by simp, ?_, ?_⟩
      · intro _
        simp [he]
      · intro x hx hne
        simp at hx
        exact absurd hx.symm hne
    · have hlen : 0 < (rs.content.drop rs.pos).length := List.length_pos_iff.mpr he
      obtain ⟨m, hm, hm0⟩ : ∃ m, m = min k ((rs.sched rs.tick).give + 1) ∧ 0 < m := ⟨_, rfl, by omega⟩
      have hr : rs.read k = (((rs.content.drop rs.pos).take m,
          if (rs.sched rs.tick).eager && ((rs.content.drop rs.pos).take m).length == (rs.content.drop rs.pos).length
          then some Err.eof else none),
          { rs with pos := rs.pos + ((rs.content.drop rs.pos).take m).length, tick := rs.tick + 1 }) := by
        simp only [Rs.read, hf, List.isEmpty_iff, he, ← hm]; rfl
      refine ⟨_, _, _, hr, rfl, rfl, ?_, ?_, ?_, ?_, ?_⟩
      · simp only []
        rw [← List.drop_drop]
        by_cases h : m ≤ (rs.content.drop rs.pos).length
        · rw [List.length_take, Nat.min_eq_left h, List.take_append_drop]
        · rw [List.take_of_length_le (by omega)]
          simp
          omega
      · simp only [List.length_take]; omega
      · intro _ h
        have := congrArg List.length h
        simp only [List.length_take, List.length_nil] at this
        omega
      · intro h
        split at h
        · rename_i hc
          simp only [Bool.and_eq_true, beq_iff_eq] at hc
          constructor
          · simp only [hc.2]
            rw [List.drop_eq_nil_iff, List.length_drop]
            omega
          · intro hn
            have := hn rs.tick
            simp [hc.1] at this
        · cases h
      · intro x hx hne
        split at hx
        · simp at hx; exact absurd hx.symm hne
        · cases hx

/-- Invariant of a bufio reader on top of an underlying reader: what is still to come is `rest`. -/
def BufInv (sched : Nat → RsAct) (b : Bufio) (rs : Rs) (rest : List Byte) : Prop :=
  b.buf ++ rs.content.drop rs.pos = rest ∧ rs.sched = sched ∧
  (b.err = some .eof → rs.content.drop rs.pos = [] ) ∧
  (∀ x, b.err = some x → x ≠ .eof → ¬ NoFault sched ∧ x ≠ .panic ∧ x ≠ .diverge ∧ x ≠ .readyToSave)

theorem bufio_read_spec (sched : Nat → RsAct) (b : Bufio) (rs : Rs) (rest : List Byte) (n : Nat) (hn : 0 < n)
    (h : BufInv sched b rs rest) :
    ∃ out e b' rs', b.read rs n = ((out, e), b', rs') ∧ rs'.content = rs.content ∧ out.length ≤ n ∧
      out = rest.take out.length ∧ BufInv sched b' rs' (rest.drop out.length) ∧
      (e = none → out ≠ []) ∧
      (e = some .eof → rest = out ∧ (LazySched sched → out = [])) ∧
      (∀ x, e = some x → x ≠ .eof → ¬ NoFault sched ∧ x ≠ .panic ∧ x ≠ .diverge ∧ x ≠ .readyToSave) := by
  obtain ⟨hrest, hs, heof, herr⟩ := h
  unfold Bufio.read
  by_cases hb : b.buf.isEmpty
  · simp only [List.isEmpty_iff] at hb
    simp only [hb, List.isEmpty_nil, if_true]
    cases hbe : b.err with
    | some e =>
      refine ⟨[], some e, _, rs, rfl, rfl, by simp, by simp, ?_, by simp, ?_, ?_⟩
      · refine ⟨by rw [hb] at hrest; simpa [hb] using hrest, hs, by simp, by simp⟩
      · intro he
        simp at he; subst he
        have := heof hbe
        rw [hb, this] at hrest
        simp at hrest
        exact ⟨hrest.symm ▸ rfl, fun _ => rfl⟩
      · intro x hx hne
        simp at hx; subst hx
        exact herr _ hbe hne
    | none =>
      simp only []
      by_cases hbig : bufioSize ≤ n
      · simp only [hbig, if_true]
        obtain ⟨out, e, rs', hr, hcont, hsch, happ, hlen, hne, hee, hx⟩ := rs_read_spec rs n hn
        rw [hr]
        rw [hb] at hrest
        simp only [List.nil_append] at hrest
        rw [hrest] at happ
        refine ⟨out, e, _, rs', rfl, hcont, hlen, ?_, ?_, hne, ?_, ?_⟩
        · rw [← happ]; simp
        · refine ⟨?_, hsch.trans hs, by simp, by simp⟩
          rw [← happ]; simp
        · intro he
          obtain ⟨h1, h2⟩ := hee he
          rw [h1] at happ
          refine ⟨by simpa using happ.symm, fun h => h2 (hs ▸ h)⟩
        · intro x h1 h2
          have := hx x h1 h2
          exact ⟨hs ▸ this.1, this.2⟩
      · simp only [hbig, if_false]
        obtain ⟨out, e, rs', hr, hcont, hsch, happ, hlen, hne, hee, hx⟩ := rs_read_spec rs bufioSize (by decide)
        rw [hr]
        rw [hb] at hrest
        simp only [List.nil_append] at hrest
        rw [hrest] at happ
        by_cases ho : out.isEmpty
        · simp only [List.isEmpty_iff] at ho
          subst ho
          simp only [List.isEmpty_nil, if_true]
          refine ⟨[], e, _, rs', rfl, hcont, by simp, by simp, ?_, ?_, ?_, ?_⟩
          · refine ⟨by simpa using happ, hsch.trans hs, by simp, by simp⟩
          · exact hne
          · intro he
            obtain ⟨h1, h2⟩ := hee he
            rw [h1] at happ
            exact ⟨by simpa using happ.symm, fun _ => rfl⟩
          · intro x h1 h2
            have := hx x h1 h2
            exact ⟨hs ▸ this.1, this.2⟩
        · simp only [ho]
          have ho' : out ≠ [] := by simpa [List.isEmpty_iff] using ho
          refine ⟨out.take n, none, _, rs', rfl, hcont, ?_, ?_, ?_, ?_, by simp, by simp⟩
          · simp; omega
          · rw [← happ, List.length_take]
            by_cases h : n ≤ out.length
            · rw [Nat.min_eq_left h, List.take_append_of_le_length h]
            · rw [Nat.min_eq_right (by omega), List.take_of_length_le (by omega)]
              simp
          · refine ⟨?_, hsch.trans hs, fun he => (hee he).1, ?_⟩
            · simp only []
              rw [← happ, List.length_take]
              by_cases h : n ≤ out.length
              · rw [Nat.min_eq_left h, List.drop_append_of_le_length h]
              · rw [Nat.min_eq_right (by omega), List.drop_of_length_le (by omega : out.length ≤ n)]
                simp
            · intro x h1 h2
              have := hx x h1 h2
              exact ⟨hs ▸ this.1, this.2⟩
          · intro _ h
            have := congrArg List.length h
            simp at this
            rcases this with h | h
            · omega
            · exact ho' h
  · simp only [hb]
    have hb' : b.buf ≠ [] := by simpa [List.isEmpty_iff] using hb
    refine ⟨b.buf.take n, none, _, rs, rfl, rfl, ?_, ?_, ?_, ?_, by simp, by simp⟩
    · simp; omega
    · rw [← hrest, List.length_take]
      by_cases h : n ≤ b.buf.length
      · rw [Nat.min_eq_left h, List.take_append_of_le_length h]
      · rw [Nat.min_eq_right (by omega), List.take_of_length_le (by omega)]
        simp
    · refine ⟨?_, hs, heof, herr⟩
      simp only []
      rw [← hrest, List.length_take]
      by_cases h : n ≤ b.buf.length
      · rw [Nat.min_eq_left h, List.drop_append_of_le_length h]
      · rw [Nat.min_eq_right (by omega), List.drop_of_length_le (by omega : b.buf.length ≤ n)]
        simp
    · intro _ h
      have := congrArg List.length h
      simp at this
      rcases this with h | h
      · omega
      · exact hb' h

theorem bufio_readByte_spec (sched : Nat → RsAct) (b : Bufio) (rs : Rs) (rest : List Byte)
    (h : BufInv sched b rs rest) :
    ∃ x e b' rs', b.readByte rs = ((x, e), b', rs') ∧ rs'.content = rs.content ∧
      ((e = none ∧ ∃ rest', rest = x :: rest' ∧ BufInv sched b' rs' rest') ∨
       (e = some .eof ∧ rest = [] ∧ BufInv sched b' rs' rest) ∨
       (∃ y, e = some y ∧ y ≠ .eof ∧ ¬ NoFault sched ∧ y ≠ .panic ∧ y ≠ .diverge ∧ y ≠ .readyToSave ∧
          BufInv sched b' rs' rest)) := by
  obtain ⟨hrest, hs, heof, herr⟩ := h
  unfold Bufio.readByte
  cases hb : b.buf with
  | cons c l =>
    refine ⟨c, none, _, rs, rfl, rfl, Or.inl ⟨rfl, l ++ rs.content.drop rs.pos, ?_, rfl, hs, heof, herr⟩⟩
    rw [← hrest, hb]; rfl
  | nil =>
    simp only []
    rw [hb] at hrest
    simp only [List.nil_append] at hrest
    cases hbe : b.err with
    | some e =>
      refine ⟨0, some e, _, rs, rfl, rfl, ?_⟩
      by_cases he : e = .eof
      · subst he
        have := heof hbe
        rw [hrest] at this
        refine Or.inr (Or.inl ⟨rfl, this, ?_, hs, by simp, by simp⟩)
        simp [hrest]
      · have := herr _ hbe he
        exact Or.inr (Or.inr ⟨e, rfl, he, this.1, this.2.1, this.2.2.1, this.2.2.2, by simpa using hrest, hs,
          by simp, by simp⟩)
    | none =>
      simp only []
      obtain ⟨out, e, rs', hr, hcont, hsch, happ, hlen, hne, hee, hx⟩ := rs_read_spec rs bufioSize (by decide)
      rw [hr]
      rw [hrest] at happ
      cases out with
      | cons c l =>
        refine ⟨c, none, _, rs', rfl, hcont, Or.inl ⟨rfl, l ++ rs'.content.drop rs'.pos, ?_, rfl, hsch.trans hs,
          fun h => (hee h).1, ?_⟩⟩
        · rw [← happ]; rfl
        · intro x h1 h2
          have := hx x h1 h2
          exact ⟨hs ▸ this.1, this.2⟩
      | nil =>
        simp only [List.nil_append] at happ
        cases e with
        | none => exact absurd rfl (hne rfl)
        | some e =>
          refine ⟨0, some e, _, rs', rfl, hcont, ?_⟩
          by_cases he : e = .eof
          · subst he
            refine Or.inr (Or.inl ⟨rfl, ?_, ?_, hsch.trans hs, by simp, by simp⟩)
            · rw [← happ]; exact (hee rfl).1
            · simpa using happ
          · have := hx e rfl he
            exact Or.inr (Or.inr ⟨e, rfl, he, hs ▸ this.1, this.2.1, this.2.2.1, this.2.2.2,
              by simpa using happ, hsch.trans hs, by simp, by simp⟩)

/-- What identifies the stream of a seek source: content, schedule, section. -/
structure Geo where
  raw : List Byte
  sched : Nat → RsAct
  start : Nat
  size : Nat

/-- The stream of a seek source. -/
def Geo.stream (g : Geo) : List Byte := window g.raw g.start g.size

/-- `s` is a seek source with this geometry. -/
def GoodS (g : Geo) (s : SeekSt) : Prop :=
  s.rs.content = g.raw ∧ s.rs.sched = g.sched ∧ s.sectionStart = g.start ∧ s.size = g.size

/-- `s` is resumed and its cursor is at `o`. -/
def AtS (g : Geo) (s : SeekSt) (o : Nat) : Prop :=
  GoodS g s ∧ s.offset = o ∧ o ≤ g.stream.length ∧
  ∃ b, s.br = some b ∧ BufInv g.sched b s.rs (g.raw.drop (g.start + o))

/-- A checkpoint a seek source makes at offset `o`. -/
def CkS (g : Geo) (ck : Ckpt) (o : Nat) : Prop := ck = .plain o ∧ o ≤ g.stream.length

theorem stream_length (g : Geo) : g.stream.length = min g.size (g.raw.length - g.start) := by
  simp [Geo.stream, window]

/-- The part of the stream from `o` on is the part of the raw content, cut at the section's end. -/
theorem stream_drop (g : Geo) (o : Nat) : g.stream.drop o = (g.raw.drop (g.start + o)).take (g.size - o) := by
  simp [Geo.stream, window, List.drop_take]

theorem resume_go_spec (g : Geo) (s : SeekSt) (o : Nat) (hg : GoodS g s) (ho : s.offset = o)
    (hle : o ≤ g.stream.length) :
    (∃ s', resume.go s = (.ok (o : Int), s') ∧ AtS g s' o ∧ s'.hasSSC = s.hasSSC ∧ s'.wantSave = s.wantSave) ∨
    (∃ e s', resume.go s = (.error e, s') ∧ ¬ NoFault g.sched ∧ e ≠ .panic ∧ e ≠ .diverge) := by
  obtain ⟨h1, h2, h3, h4⟩ := hg
  unfold resume.go Rs.seek
  cases hf : (s.rs.sched s.rs.tick).fault with
  | some code =>
    right
    refine ⟨_, _, rfl, ?_, by simp, by simp⟩
    intro hn
    have := hn s.rs.tick
    rw [h2] at hf
    simp [hf] at this
  | none =>
    left
    simp only []
    have hneg : ¬ (s.sectionStart + s.offset < 0) := by rw [h3, ho]; omega
    simp only [hneg, if_false]
    refine ⟨{ s with rs := { s.rs with pos := (s.sectionStart + s.offset).toNat, tick := s.rs.tick + 1 },
                     br := some .fresh }, by simp only [ho],
      ⟨⟨h1, h2, h3, h4⟩, ho, hle, .fresh, rfl, ?_, h2, by simp [Bufio.fresh], by simp [Bufio.fresh]⟩, rfl, rfl⟩
    simp only [Bufio.fresh, List.nil_append]
    rw [h1, h3, ho]
    congr 1

theorem resume_nil_spec (g : Geo) (s : SeekSt) (hg : GoodS g s) :
    (∃ s', resume none s = (.ok (0 : Int), s') ∧ AtS g s' 0 ∧ s'.hasSSC = s.hasSSC ∧ s'.wantSave = s.wantSave) ∨
    (∃ e s', resume none s = (.error e, s') ∧ ¬ NoFault g.sched ∧ e ≠ .panic ∧ e ≠ .diverge) :=
  resume_go_spec g { s with offset := 0 } 0 hg rfl (Nat.zero_le _)

theorem resume_ck_spec (g : Geo) (s : SeekSt) (ck : Ckpt) (o : Nat) (hg : GoodS g s) (hck : CkS g ck o) :
    (∃ s', resume (some ck) s = (.ok (o : Int), s') ∧ AtS g s' o ∧ s'.hasSSC = s.hasSSC ∧ s'.wantSave = s.wantSave) ∨
    (∃ e s', resume (some ck) s = (.error e, s') ∧ ¬ NoFault g.sched ∧ e ≠ .panic ∧ e ≠ .diverge) := by
  have ho : ck.offset = o := by rw [hck.1]; rfl
  have hneg : ¬ ck.offset < 0 := by rw [ho]; omega
  have := resume_go_spec g { s with offset := ck.offset } o hg ho hck.2
  simpa only [resume, hneg, if_false] using this

/-- What `handleSave` emits. -/
def emitted (s : SeekSt) : Option Ckpt := if s.wantSave && s.hasSSC then some (.plain s.offset) else none

theorem handleSave_eq {C : Type} (cb : Callback C) (s : SeekSt) (c : C) :
    handleSave cb s c = ({ s with wantSave := false }, deliver cb (emitted s) c) := by
  unfold handleSave emitted deliver
  cases s with | mk rs br hasSSC wantSave ss off sz =>
  cases wantSave <;> cases hasSSC <;> simp

theorem read_spec (g : Geo) {C : Type} (cb : Callback C) (s : SeekSt) (o n : Nat) (c : C)
    (h : AtS g s o) (hn : 0 < n) :
    ∃ bs e s' em, read cb n s c = ((bs, e), s', deliver cb em c) ∧
      (em = if o = g.size then none else emitted s) ∧
      s'.hasSSC = s.hasSSC ∧ (s'.wantSave = if o = g.size then s.wantSave else false) ∧
      bs.length ≤ n ∧ bs = (g.stream.drop o).take bs.length ∧ AtS g s' (o + bs.length) ∧
      ((e = none ∧ bs ≠ []) ∨
       (e = some .eof ∧ o + bs.length = g.stream.length ∧ (LazySched g.sched → bs = [])) ∨
       (∃ x, e = some x ∧ x ≠ .eof ∧ x ≠ .panic ∧ x ≠ .diverge ∧ x ≠ .readyToSave ∧ ¬ NoFault g.sched)) := by
  obtain ⟨hg, ho, hle, b, hb, hinv⟩ := h
  have hlen := stream_length g
  unfold read
  simp only [hb]
  rw [if_neg (by omega)]
  by_cases hrem : s.size - s.offset = 0
  · have hos : o = g.size := by rw [hg.2.2.2, ho] at hrem; omega
    rw [if_pos hrem]
    refine ⟨[], some .eof, s, none, rfl, by simp [hos], rfl, by simp [hos], by simp, by simp,
      ⟨hg, ho, hle, b, hb, hinv⟩, Or.inr (Or.inl ⟨rfl, ?_, fun _ => rfl⟩)⟩
    simp; omega
  · have hos : o ≠ g.size := by rw [hg.2.2.2, ho] at hrem; omega
    have hlt : o < g.size := by omega
    rw [if_neg hrem, if_neg (by rw [hg.2.2.2, ho]; omega)]
    rw [handleSave_eq]
    simp only [hb]
    obtain ⟨n', hn'⟩ : ∃ n', n' = (if (n : Int) > s.size - s.offset then (s.size - s.offset).toNat else n) := ⟨_, rfl⟩
    have hn1 : 0 < n' ∧ n' ≤ n ∧ n' ≤ g.size - o := by
      rw [hn', hg.2.2.2, ho]
      split <;> omega
    rw [← hn']
    obtain ⟨out, e, b', rs', hr, hcont, hol, hout, hinv', hnone, heof, herr⟩ :=
      bufio_read_spec g.sched b s.rs _ n' hn1.1 hinv
    rw [hr]
    simp only [if_neg hos]
    have hout' : out = (g.stream.drop o).take out.length := by
      rw [stream_drop, List.take_take, Nat.min_eq_left (by omega)]
      exact hout
    have hol2 : o + out.length ≤ g.stream.length := by
      have := congrArg List.length hout'
      rw [List.length_take, List.length_drop] at this
      omega
    refine ⟨out, e, _, _, rfl, rfl, rfl, rfl, by omega, hout', ?_, ?_⟩
    · refine ⟨⟨hcont.trans hg.1, hinv'.2.1, hg.2.2.1, hg.2.2.2⟩, by simp [ho], hol2, b', rfl, ?_⟩
      rw [List.drop_drop] at hinv'
      rw [← Nat.add_assoc]
      exact hinv'
    · cases e with
      | none => exact Or.inl ⟨rfl, hnone rfl⟩
      | some x =>
        by_cases hx : x = .eof
        · subst hx
          obtain ⟨h1, h2⟩ := heof rfl
          refine Or.inr (Or.inl ⟨rfl, ?_, h2⟩)
          have := congrArg List.length h1
          rw [List.length_drop] at this
          omega
        · have := herr x rfl hx
          exact Or.inr (Or.inr ⟨x, rfl, hx, this.2.1, this.2.2.1, this.2.2.2, this.1⟩)

theorem readByte_spec (g : Geo) {C : Type} (cb : Callback C) (s : SeekSt) (o : Nat) (c : C) (h : AtS g s o) :
    ∃ x e s' em, readByte cb s c = ((x, e), s', deliver cb em c) ∧
      (em = if o = g.size then none else emitted s) ∧
      s'.hasSSC = s.hasSSC ∧ (s'.wantSave = if o = g.size then s.wantSave else false) ∧
      ((e = none ∧ (g.stream.drop o).head? = some x ∧ AtS g s' (o + 1)) ∨
       (e = some .eof ∧ o = g.stream.length ∧ AtS g s' o) ∨
       (∃ y, e = some y ∧ y ≠ .eof ∧ y ≠ .panic ∧ y ≠ .diverge ∧ y ≠ .readyToSave ∧ ¬ NoFault g.sched ∧
          AtS g s' o)) := by
  obtain ⟨hg, ho, hle, b, hb, hinv⟩ := h
  have hlen := stream_length g
  unfold readByte
  simp only [hb]
  by_cases hrem : s.offset = s.size
  · have hos : o = g.size := by rw [hg.2.2.2, ho] at hrem; omega
    rw [if_pos hrem]
    refine ⟨0, some .eof, s, none, rfl, by simp [hos], rfl, by simp [hos],
      Or.inr (Or.inl ⟨rfl, by omega, ⟨hg, ho, hle, b, hb, hinv⟩⟩)⟩
  · have hos : o ≠ g.size := by rw [hg.2.2.2, ho] at hrem; omega
    have hlt : o < g.size := by omega
    rw [if_neg hrem, handleSave_eq]
    simp only [hb]
    obtain ⟨x, e, b', rs', hr, hcont, hcase⟩ := bufio_readByte_spec g.sched b s.rs _ hinv
    rw [hr]
    simp only [if_neg hos]
    refine ⟨x, e, _, _, rfl, rfl, rfl, rfl, ?_⟩
    rcases hcase with ⟨h1, rest', h2, h3⟩ | ⟨h1, h2, h3⟩ | ⟨y, h1, h2, h3, h4, h5, h6, h7⟩
    · left
      have hrl := congrArg List.length h2
      rw [List.length_drop, List.length_cons] at hrl
      refine ⟨h1, ?_, ⟨hcont.trans hg.1, h3.2.1, hg.2.2.1, hg.2.2.2⟩, by simp [h1, ho], by omega, b', rfl, ?_⟩
      · rw [stream_drop, h2]
        obtain ⟨m, hm⟩ : ∃ m, g.size - o = m + 1 := ⟨g.size - o - 1, by omega⟩
        rw [hm]; rfl
      · have : g.raw.drop (g.start + (o + 1)) = rest' := by
          rw [← Nat.add_assoc, ← List.drop_drop, h2]; rfl
        rw [this]; exact h3
    · right; left
      have hrl := congrArg List.length h2
      rw [List.length_drop, List.length_nil] at hrl
      exact ⟨h1, by omega, ⟨hcont.trans hg.1, h3.2.1, hg.2.2.1, hg.2.2.2⟩, by simp [h1, ho], hle, b', rfl, h3⟩
    · right; right
      exact ⟨y, h1, h2, h4, h5, h6, h3, ⟨hcont.trans hg.1, h7.2.1, hg.2.2.1, hg.2.2.2⟩, by simp [h1, ho], hle, b',
        rfl, h7⟩

theorem emitted_ck (g : Geo) (s : SeekSt) (o : Nat) (h : AtS g s o) :
    ∀ ck, (if o = g.size then none else emitted s) = some ck → CkS g ck o := by
  intro ck hck
  split at hck
  · cases hck
  · unfold emitted at hck
    split at hck
    · simp at hck
      subst hck
      exact ⟨by rw [h.2.1], h.2.2.1⟩
    · cases hck

theorem emitted_quiet (g : Geo) (s : SeekSt) (o : Nat) (h : s.wantSave = false) :
    (if o = g.size then none else emitted s) = none := by
  split
  · rfl
  · simp [emitted, h]

end Seek

open Seek in
/-- A resumed seek source: its offset is within bounds. -/
def LiveS (g : Geo) (s : SeekSt) : Prop := GoodS g s ∧ 0 ≤ s.offset ∧ s.offset ≤ s.size

open Seek in
theorem atS_live {g : Geo} {s : SeekSt} {o : Nat} (h : AtS g s o) : LiveS g s := by
  refine ⟨h.1, ?_⟩
  have h1 := h.2.2.1
  rw [stream_length] at h1
  rw [h.2.1, h.1.2.2.2]
  omega

open Seek in
/-- **seeksource meets the specification of a resumable source.** -/
def seekLawful (g : Geo) : Lawful seekM g.stream true where
  Good := GoodS g
  Live := LiveS g
  At := AtS g
  CkFor := CkS g
  Quiet := fun s => s.wantSave = false
  nice := NoFault g.sched
  lazy := LazySched g.sched
  exact := True
  early := True
  plain := True
  rank := fun s => (s.size - s.offset).toNat
  rankMax := g.size
  at_live h := atS_live h
  live_good h := h.1
  progress_spec := by
    intro s h
    obtain ⟨_, h1, h2⟩ := h
    show 0 ≤ (Seek.progress s).1 ∧ (Seek.progress s).1 ≤ (Seek.progress s).2 ∧ 0 < (Seek.progress s).2
    unfold Seek.progress
    split
    · simp only []; omega
    · simp
  live_wantSave h := h
  live_setSSC _ h := h
  at_le h := h.2.2.1
  ck_le h := h.2
  ck_off h := by rw [h.1]; rfl
  rank_le := by
    intro s o h
    show (s.size - s.offset).toNat ≤ g.size
    rw [h.1.2.2.2, h.2.1]; omega
  rank_wantSave _ := rfl
  rank_setSSC _ _ := rfl
  at_wantSave h := h
  at_setSSC _ h := h
  good_wantSave _ h := h
  good_setSSC _ h := h
  quiet_setSSC _ h := h
  resume_nil := by
    intro s h
    rcases resume_nil_spec g s h with ⟨s', h1, h2, h3⟩ | ⟨e, s', h1, h2, h3, h4⟩
    · exact Or.inl ⟨s', h1, h2, fun h => h3.2.trans h⟩
    · exact Or.inr ⟨e, s', h1, fun h => absurd h h2, h3, h4⟩
  resume_ck := by
    intro s ck o h hck
    rcases resume_ck_spec g s ck o h hck with ⟨s', h1, h2, h3⟩ | ⟨e, s', h1, h2, h3, h4⟩
    · exact Or.inl ⟨o, s', h1, Or.inl rfl, fun _ => rfl, h2, fun h => h3.2.trans h⟩
    · exact Or.inr ⟨e, s', h1, fun h => absurd h h2, h3, h4⟩
  read_spec := by
    intro C cb s o n c h hn
    obtain ⟨bs, e, s', em, h1, h2, h3, h4, h5, h6, h7, h8⟩ := read_spec g cb s o n c h hn
    refine ⟨bs, e, s', em, h1, ?_, ?_, h5, h6, atS_live h7, ?_⟩
    · rw [h2]; exact emitted_ck g s o h
    · intro hq
      exact ⟨by rw [h2]; exact emitted_quiet g s o hq, by rw [h4]; split <;> simp [*]⟩
    · rcases h8 with ⟨e1, e2⟩ | ⟨e1, e2, e3⟩ | ⟨x, e1, e2, e3, e4, e5, e6⟩
      · left
        refine ⟨e1, h7, ?_⟩
        have hl : 0 < bs.length := List.length_pos_iff.mpr e2
        have := h7.2.2.1
        have hs := stream_length g
        show (s'.size - s'.offset).toNat < (s.size - s.offset).toNat
        rw [h7.1.2.2.2, h7.2.1, h.1.2.2.2, h.2.1]
        omega
      · exact Or.inr (Or.inl ⟨e1, h7, e2, rfl, e3⟩)
      · exact Or.inr (Or.inr (Or.inr ⟨x, e1, e2, e3, e4, e5, fun h => absurd h e6⟩))
  quiet_read := by
    intro C cb s o n c h hn _
    obtain ⟨bs, e, s', em, h1, h2, h3, h4, h5, h6, h7, h8⟩ := read_spec g cb s o n c h hn
    show (read cb n s c).1.2 = none → (read cb n s c).1.1 ≠ []
    rw [h1]
    intro he
    have he : e = none := he
    subst he
    rcases h8 with ⟨_, e2⟩ | ⟨e1, _⟩ | ⟨x, e1, _⟩
    · exact e2
    · cases e1
    · cases e1
  plain_exact := fun _ => trivial
  plain_read := by
    intro _ C cb s o n c h hn
    obtain ⟨bs, e, s', em, h1, h2, h3, h4, h5, h6, h7, h8⟩ := read_spec g cb s o n c h hn
    show (read cb n s c).1.2 = none → (read cb n s c).1.1 ≠ [] ∧ (read cb n s c).2.1.wantSave = false
    rw [h1]
    intro he
    have he : e = none := he
    subst he
    rcases h8 with ⟨_, e2⟩ | ⟨e1, _⟩ | ⟨x, e1, _⟩
    · refine ⟨e2, ?_⟩
      show s'.wantSave = false
      rw [h4, if_neg]
      have hl := List.length_pos_iff.mpr e2
      have := h7.2.2.1
      have := stream_length g
      omega
    · cases e1
    · cases e1
  resume_quiet := fun h => absurd trivial h

open Seek in
theorem seekLawfulByte (g : Geo) : LawfulByte (seekLawful g) where
  readByte_spec := by
    intro C cb s o c h
    obtain ⟨x, e, s', em, h1, h2, h3, h4, h5⟩ := readByte_spec g cb s o c h
    refine ⟨x, e, s', em, h1, ?_, ?_, ?_, ?_⟩
    · rw [h2]; exact emitted_ck g s o h
    · intro hq
      have hq : s.wantSave = false := hq
      refine ⟨by rw [h2]; exact emitted_quiet g s o hq, ?_⟩
      show s'.wantSave = false
      rw [h4]; split <;> simp [*]
    · rcases h5 with ⟨_, _, h⟩ | ⟨_, _, h⟩ | ⟨y, _, _, _, _, _, _, h⟩ <;> exact atS_live h
    · rcases h5 with ⟨e1, e2, e3⟩ | ⟨e1, e2, e3⟩ | ⟨y, e1, e2, e3, e4, e5, e6, e7⟩
      · left
        refine ⟨e1, e2, e3, ?_⟩
        have := e3.2.2.1
        have hs := stream_length g
        show (s'.size - s'.offset).toNat < (s.size - s.offset).toNat
        rw [e3.1.2.2.2, e3.2.1, h.1.2.2.2, h.2.1]
        omega
      · exact Or.inr (Or.inl ⟨e1, e3, e2, rfl⟩)
      · exact Or.inr (Or.inr ⟨y, e1, e2, e3, e4, e5, fun h => absurd h e6⟩)

end Savior
