import Verif.TarLemmas
/-!
# The tar extractor's loop: one rule for all properties
-/

namespace Savior

/-- The members of an archive, with content. -/
abbrev Members := List (THdr × List Byte)

section
variable {T : TarFmt} {clean : Bool}

/-- The parser stands at `z0` at the start of the content of the regular file `h`, with state `st0`; `ms` came before. -/
def FileAt (T : TarFmt) (clean : Bool) (Y : List Byte) (ms : Members) (h : THdr) (z0 : Nat) (st0 : T.St) : Prop :=
  z0 ≤ Y.length ∧ h.typ = .reg ∧ ∃ st1 Y1, TarPath T clean T.start Y ms st1 Y1 ∧ nextSpec T clean st1 Y1 = some (some (h, st0, Y.drop z0))

/-- The stream ends or goes wrong before the end of the archive. -/
def TarBroken (T : TarFmt) (clean : Bool) (Y : List Byte) : Prop :=
  ∃ ms st Y', TarPath T clean T.start Y ms st Y' ∧ (nextSpec T clean st Y' = none ∨
    ∃ h st2 Y2, nextSpec T clean st Y' = some (some (h, st2, Y2)) ∧ h.typ = .reg ∧ Y2.length < T.rem st2)

/-- Two ways of reading the same stream: one extends the other. -/
theorem tarPath_det {st : T.St} {Y : List Byte} : ∀ {ms ms' st1 Y1 st1' Y1'}, TarPath T clean st Y ms st1 Y1 → TarPath T clean st Y ms' st1' Y1' →
    ms.length = ms'.length → ms = ms' ∧ st1 = st1' ∧ Y1 = Y1' := by
  intro ms ms' st1 Y1 st1' Y1' h
  induction h generalizing ms' st1' Y1' with
  | nil =>
    intro h' hl
    cases h' with
    | nil => exact ⟨rfl, rfl, rfl⟩
    | file => simp at hl
    | other => simp at hl
  | file h1 h2 h3 h4 ih =>
    intro h' hl
    cases h' with
    | nil => simp at hl
    | file g1 g2 g3 g4 =>
      simp at hl
      obtain ⟨a, b, c⟩ := ih g1 hl
      subst a b c
      rw [h2] at g2
      simp only [Option.some.injEq, Prod.mk.injEq] at g2
      obtain ⟨a, b, c⟩ := g2
      subst a b c
      exact ⟨rfl, rfl, rfl⟩
    | other g1 g2 g3 =>
      simp at hl
      obtain ⟨a, b, c⟩ := ih g1 hl
      subst a b c
      rw [h2] at g2
      simp only [Option.some.injEq, Prod.mk.injEq] at g2
      obtain ⟨a, b, c⟩ := g2
      subst a b c
      exact absurd h3 g3
  | other h1 h2 h3 ih =>
    intro h' hl
    cases h' with
    | nil => simp at hl
    | file g1 g2 g3 g4 =>
      simp at hl
      obtain ⟨a, b, c⟩ := ih g1 hl
      subst a b c
      rw [h2] at g2
      simp only [Option.some.injEq, Prod.mk.injEq] at g2
      obtain ⟨a, b, c⟩ := g2
      subst a b c
      exact absurd g3 h3
    | other g1 g2 g3 =>
      simp at hl
      obtain ⟨a, b, c⟩ := ih g1 hl
      subst a b c
      rw [h2] at g2
      simp only [Option.some.injEq, Prod.mk.injEq] at g2
      obtain ⟨a, b, c⟩ := g2
      subst a b c
      exact ⟨rfl, rfl, rfl⟩

/-- What comes after a prefix of a path. -/
theorem tarPath_prefix {st : T.St} {Y : List Byte} : ∀ {ms st1 Y1}, TarPath T clean st Y ms st1 Y1 → ∀ n, n < ms.length →
    ∃ st2 Y2 h st3 Y3, TarPath T clean st Y (ms.take n) st2 Y2 ∧ nextSpec T clean st2 Y2 = some (some (h, st3, Y3)) ∧
      (h.typ = .reg → T.rem st3 ≤ Y3.length) := by
  intro ms st1 Y1 h
  induction h with
  | nil => intro n hn; simp at hn
  | @file ms st1 Y1 h st2 Y2 h1 h2 h3 h4 ih =>
    intro n hn
    simp at hn
    by_cases hlt : n < ms.length
    · obtain ⟨a, b, c, d, e, f, g⟩ := ih n hlt
      refine ⟨a, b, c, d, e, ?_, g⟩
      rw [List.take_append_of_le_length (by omega)]
      exact f
    · have : n = ms.length := by omega
      subst this
      refine ⟨st1, Y1, h, st2, Y2, ?_, h2, fun _ => h4⟩
      rw [List.take_append_of_le_length (Nat.le_refl _), List.take_length]
      exact h1
  | @other ms st1 Y1 h st2 Y2 h1 h2 h3 ih =>
    intro n hn
    simp at hn
    by_cases hlt : n < ms.length
    · obtain ⟨a, b, c, d, e, f, g⟩ := ih n hlt
      refine ⟨a, b, c, d, e, ?_, g⟩
      rw [List.take_append_of_le_length (by omega)]
      exact f
    · have : n = ms.length := by omega
      subst this
      refine ⟨st1, Y1, h, st2, Y2, ?_, h2, fun h => absurd h h3⟩
      rw [List.take_append_of_le_length (Nat.le_refl _), List.take_length]
      exact h1

/-- A stream has at most one reading. -/
theorem tarHas_det {Y : List Byte} {ms ms' : Members} (h : TarHas T clean Y ms) (h' : TarHas T clean Y ms') : ms = ms' := by
  obtain ⟨st, Z, p, e⟩ := h
  obtain ⟨st', Z', p', e'⟩ := h'
  rcases Nat.lt_trichotomy ms.length ms'.length with hl | hl | hl
  · obtain ⟨st2, Y2, h, st3, Y3, g1, g2, _⟩ := tarPath_prefix p' ms.length hl
    obtain ⟨_, b, c⟩ := tarPath_det p g1 (by simp; omega)
    rw [← b, ← c, e] at g2
    cases g2
  · exact (tarPath_det p p' hl).1
  · obtain ⟨st2, Y2, h, st3, Y3, g1, g2, _⟩ := tarPath_prefix p ms'.length hl
    obtain ⟨_, b, c⟩ := tarPath_det p' g1 (by simp; omega)
    rw [← b, ← c, e'] at g2
    cases g2

/-- A complete archive is not broken. -/
theorem tarHas_not_broken {Y : List Byte} {ms : Members} (h : TarHas T clean Y ms) : ¬ TarBroken T clean Y := by
  rintro ⟨ms', st', Z', p', hb⟩
  obtain ⟨st, Z, p, e⟩ := h
  rcases Nat.lt_trichotomy ms.length ms'.length with hl | hl | hl
  · obtain ⟨st2, Y2, h, st3, Y3, g1, g2, _⟩ := tarPath_prefix p' ms.length hl
    obtain ⟨_, b, c⟩ := tarPath_det p g1 (by simp; omega)
    rw [← b, ← c, e] at g2
    cases g2
  · obtain ⟨_, b, c⟩ := tarPath_det p p' hl
    rw [← b, ← c] at hb
    rcases hb with hb | ⟨h, st2, Y2, hb, _⟩
    · rw [e] at hb; cases hb
    · rw [e] at hb; cases hb
  · obtain ⟨st2, Y2, h, st3, Y3, g1, g2, g3⟩ := tarPath_prefix p ms'.length hl
    obtain ⟨_, b, c⟩ := tarPath_det p' g1 (by simp; omega)
    rw [← b, ← c] at g2
    rcases hb with hb | ⟨h', st2', Y2', hb, hr, hlt⟩
    · rw [hb] at g2; cases g2
    · rw [hb] at g2
      simp only [Option.some.injEq, Prod.mk.injEq] at g2
      obtain ⟨a1, a2, a3⟩ := g2
      subst a1 a2 a3
      have := g3 hr
      omega

end

section
variable {K : SinkM} {V : SaveCons} {S : SourceM} {Y : List Byte} {clean : Bool} {T : TarFmt}

/-- The checkpoint with its entry set / with everything about the current entry dropped (tarextractor.go:186, 232-234). -/
def XW.withEntry (w : XW K V) (e : Entry) : XW K V := { w with ck := { w.ck with entry := some e } }
def XW.cleared (w : XW K V) : XW K V := { w with ck := { w.ck with entry := none, srcCk := none, data := none } }
def XW.atIndex (w : XW K V) (i : Int) : XW K V := { w with ck := { w.ck with entryIndex := i } }

/-- What a property must provide to be carried through a run: `B` holds between members, `I` within a regular file,
`E` when the run fails, `P` when it was stopped. -/
structure TarInv (L : Lawful S Y clean) (T : TarFmt) (pr : Ckpt → Int × Int) (V : SaveCons) (K : SinkM) (Qt : Prop) (o0 : Nat)
    (B : Members → List Entry → XW K V → Prop)
    (I : Members → THdr → List Entry → Nat → T.St → Nat → XW K V → Prop)
    (E P : XW K V → Prop) : Prop where
  p_end : ∀ w, P w → E w
  b_index : ∀ ms R w i, B ms R w → B ms R (w.atIndex i)
  b_end : ∀ ms R w, B ms R w → E w
  dir : ∀ ms R w h, B ms R w → h.typ = .dir → (∃ st Y', TarPath T clean T.start Y (ms ++ [(h, [])]) st Y') → ((K.mkdir (tarEntryOf h) w.sink).1 = none →
    B (ms ++ [(h, [])]) R (({ w.withEntry (tarEntryOf h) with sink := (K.mkdir (tarEntryOf h) w.sink).2 } : XW K V).say (.mkdir (tarEntryOf h) none)).cleared) ∧
    ((K.mkdir (tarEntryOf h) w.sink).1 ≠ none →
    E (({ w.withEntry (tarEntryOf h) with sink := (K.mkdir (tarEntryOf h) w.sink).2 } : XW K V).say (.mkdir (tarEntryOf h) (K.mkdir (tarEntryOf h) w.sink).1)))
  link : ∀ ms R w h, B ms R w → h.typ = .symlink → (∃ st Y', TarPath T clean T.start Y (ms ++ [(h, [])]) st Y') → ((K.symlink (tarEntryOf h) h.link w.sink).1 = none →
    B (ms ++ [(h, [])]) R (({ w.withEntry (tarEntryOf h) with sink := (K.symlink (tarEntryOf h) h.link w.sink).2 } : XW K V).say (.symlink (tarEntryOf h) h.link none)).cleared) ∧
    ((K.symlink (tarEntryOf h) h.link w.sink).1 ≠ none →
    E (({ w.withEntry (tarEntryOf h) with sink := (K.symlink (tarEntryOf h) h.link w.sink).2 } : XW K V).say (.symlink (tarEntryOf h) h.link (K.symlink (tarEntryOf h) h.link w.sink).1)))
  other : ∀ ms R w h, B ms R w → h.typ = .other → (∃ st Y', TarPath T clean T.start Y (ms ++ [(h, [])]) st Y') → B (ms ++ [(h, [])]) R w
  file : ∀ ms R w h z0 st0, B ms R w → w.stopErr = false → FileAt T clean Y ms h z0 st0 → ((K.getWriter (tarEntryOf h) w.sink).1 = none →
    I ms h R z0 st0 z0 { ({ w.withEntry (tarEntryOf h) with sink := (K.getWriter (tarEntryOf h) w.sink).2 } : XW K V).say (.openW (tarEntryOf h) none) with stop := false }) ∧
    ((K.getWriter (tarEntryOf h) w.sink).1 ≠ none →
    E (({ w.withEntry (tarEntryOf h) with sink := (K.getWriter (tarEntryOf h) w.sink).2 } : XW K V).say (.openW (tarEntryOf h) (K.getWriter (tarEntryOf h) w.sink).1)))
  i_entry : ∀ ms h R z0 st0 o w, I ms h R z0 st0 o w → w.ck.entry ≠ none
  save : ∀ ms h R z0 st0 o (c : TC T K V) sck, FileAt T clean Y ms h z0 st0 → I ms h R z0 st0 o c.xw → InMember T st0 z0 R c o → o0 ≤ o →
    (Qt → o0 < o ∧ ∃ n u, (V.shouldSave n u).1 = true) → L.CkFor sck o → c.xw.stop = false → c.xw.stopErr = false → c.xw.ck.entryIndex = (ms.length : Int) →
    I ms h R z0 st0 o (tarOnSave T pr sck c).1.xw
  write : ∀ ms h R z0 st0 o w bs, FileAt T clean Y ms h z0 st0 → I ms h R z0 st0 o w → bs = (Y.drop o).take bs.length → o + bs.length ≤ Y.length →
    o + bs.length ≤ z0 + T.rem st0 → z0 ≤ o →
    ((w.write bs).1.2 = none → I ms h R z0 st0 (o + bs.length) (w.write bs).2) ∧
    ((w.write bs).1.2 ≠ none → E { (w.write bs).2 with sink := K.closeWriter (w.write bs).2.sink })
  should : ∀ ms h R z0 st0 o w n, I ms h R z0 st0 o w → I ms h R z0 st0 o { w with cons := (V.shouldSave n w.cons).2 }
  emit : ∀ ms h R z0 st0 o w p, I ms h R z0 st0 o w → I ms h R z0 st0 o (w.say (.progress p))
  i_end : ∀ ms h R z0 st0 o w, I ms h R z0 st0 o w → E { w with sink := K.closeWriter w.sink }
  i_stop : ∀ ms h R z0 st0 o w p, I ms h R z0 st0 o w → w.stop = true → w.stopErr = true →
    P (({ w with sink := K.closeWriter w.sink } : XW K V).say (.progress p)).cleared
  finish : ∀ ms h R z0 st0 w p e, FileAt T clean Y ms h z0 st0 → I ms h R z0 st0 (z0 + T.rem st0) w → z0 + T.rem st0 ≤ Y.length → w.stop = false →
    w.stopErr = false → w.ck.entry = some e →
    B (ms ++ [(h, (Y.drop z0).take (T.rem st0))]) (R ++ [e]) (({ w with sink := K.closeWriter w.sink } : XW K V).say (.progress p)).cleared

/-- Nothing fails: neither the save callback nor the sink. -/
structure TarFine (T : TarFmt) (clean : Bool) (Y : List Byte) (pr : Ckpt → Int × Int) (V : SaveCons) (K : SinkM)
    (B : Members → List Entry → XW K V → Prop) (I : Members → THdr → List Entry → Nat → T.St → Nat → XW K V → Prop) : Prop where
  save : ∀ ms h R z0 st0 o (c : TC T K V) sck, I ms h R z0 st0 o c.xw → InMember T st0 z0 R c o → (tarOnSave T pr sck c).2 = none
  dir : ∀ ms R w h, B ms R w → h.typ = .dir → (∃ st Y', TarPath T clean T.start Y (ms ++ [(h, [])]) st Y') → (K.mkdir (tarEntryOf h) w.sink).1 = none
  link : ∀ ms R w h, B ms R w → h.typ = .symlink → (∃ st Y', TarPath T clean T.start Y (ms ++ [(h, [])]) st Y') → (K.symlink (tarEntryOf h) h.link w.sink).1 = none
  file : ∀ ms R w h z0 st0, B ms R w → FileAt T clean Y ms h z0 st0 → (K.getWriter (tarEntryOf h) w.sink).1 = none
  write : ∀ ms h R z0 st0 o w bs, FileAt T clean Y ms h z0 st0 → I ms h R z0 st0 o w → bs = (Y.drop o).take bs.length → o + bs.length ≤ Y.length →
    o + bs.length ≤ z0 + T.rem st0 → z0 ≤ o → (w.write bs).1.2 = none

variable {pr : Ckpt → Int × Int} {Qt : Prop} {o0 : Nat} {B : Members → List Entry → XW K V → Prop}
  {I : Members → THdr → List Entry → Nat → T.St → Nat → XW K V → Prop} {E P : XW K V → Prop}

/-- How a step ends: the run is over (error, end of the archive, stop), or it is between members again, further on. -/
def StepOut (L : Lawful S Y clean) (T : TarFmt) (V : SaveCons) (K : SinkM) (Qt : Prop) (o0 : Nat) (B : Members → List Entry → XW K V → Prop)
    (E P : XW K V → Prop) (n o : Nat) (r : Except Err Bool) (s' : S.St) (c' : TC T K V) : Prop :=
  L.Live s' ∧
  ((∃ x, r = .error x ∧ E c'.xw) ∨
   (r = .ok false ∧ c'.xw.stopErr = true ∧ P c'.xw) ∨
   (r = .ok true ∧ c'.xw.stopErr = false ∧ ∃ ms, TarHas T clean Y ms ∧ B ms c'.res c'.xw) ∨
   (r = .ok false ∧ c'.xw.stopErr = false ∧ ∃ ms o', ms.length = n + 1 ∧ o < o' ∧ L.At s' o' ∧ Phase L V Qt o0 s' o' ∧ c'.roff = o' ∧
      TarPath T clean T.start Y ms c'.rd (Y.drop o') ∧ B ms c'.res c'.xw ∧ c'.xw.ck.entry = none ∧ (∃ n, T.want c'.rd = .more n)))

/-- The state in which a file is being entered: a writer was just opened. -/
theorem tarFile_rule (hT : T.Law) (L : Lawful S Y clean) (hI : TarInv L T pr V K Qt o0 B I E P) {F : Nat}
    {ms : Members} {h : THdr} {R : List Entry} {z0 : Nat} {st0 : T.St} {o : Nat} {s : S.St} {c : TC T K V} {e : Entry}
    (hf : FileAt T clean Y ms h z0 st0) (hat : L.At s o)
    (hopen : (K.getWriter e c.xw.sink).1 = none →
      I ms h R z0 st0 o { ({ c.xw with sink := (K.getWriter e c.xw.sink).2 } : XW K V).say (.openW e none) with stop := false })
    (hbad : (K.getWriter e c.xw.sink).1 ≠ none →
      E (({ c.xw with sink := (K.getWriter e c.xw.sink).2 } : XW K V).say (.openW e (K.getWriter e c.xw.sink).1)))
    (him : InMember T st0 z0 R c o) (hph : Phase L V Qt o0 s o) (hse : c.xw.stopErr = false)
    (hix : c.xw.ck.entryIndex = (ms.length : Int)) :
    ∃ r s' c', tarFile S T pr F e s c = (r, s', c') ∧ L.Live s' ∧
      ((r ≠ none ∧ E c'.xw) ∨
       (r = none ∧ c'.xw.stopErr = true ∧ P c'.xw.cleared) ∨
       (r = none ∧ c'.xw.stopErr = false ∧ ∃ R', L.At s' (z0 + T.rem st0) ∧ Phase L V Qt o0 s' (z0 + T.rem st0) ∧ c'.roff = (z0 + T.rem st0 : Nat) ∧
         c'.rd = T.take (T.rem st0) st0 ∧ z0 + T.rem st0 ≤ Y.length ∧
         c'.res = R' ∧ B (ms ++ [(h, (Y.drop z0).take (T.rem st0))]) R' c'.xw.cleared)) ∧
      (TarFine T clean Y pr V K B I → L.nice → clean = true → z0 + T.rem st0 ≤ Y.length → L.rank s < F → (K.getWriter e c.xw.sink).1 = none → r = none) := by
  unfold tarFile
  generalize K.getWriter e c.xw.sink = Q at *
  obtain ⟨ge, k'⟩ := Q
  simp only at *
  cases ge with
  | some x =>
    exact ⟨_, _, _, rfl, L.at_live hat, Or.inl ⟨by simp, hbad (by simp)⟩, by simp⟩
  | none =>
    simp only
    have hi := hopen rfl
    have hcl : (tarIO (K := K) (V := V) S T pr).clearStop (s, { c with xw := ({ c.xw with sink := k' } : XW K V).say (.openW e none) }) =
      (s, { c with xw := { ({ c.xw with sink := k' } : XW K V).say (.openW e none) with stop := false } }) := rfl
    unfold copyDo
    rw [hcl]
    obtain ⟨r, s', c', ev, g1, g2, g3, g4⟩ := tarCopy_rule hT L pr Qt o0 st0 z0 R
      (fun o w => I ms h R z0 st0 o w ∧ w.stop = w.stopErr ∧ w.ck.entryIndex = (ms.length : Int)) (fun w => E { w with sink := K.closeWriter w.sink })
      (by
        rintro o c sck ⟨a, a', ai⟩ b c' d f g
        refine ⟨hI.save ms h R z0 st0 o c sck hf a b c' d f g (by rw [← a', g]) ai, ?_⟩
        unfold tarOnSave
        split
        · exact ⟨a', ai⟩
        · split
          · exact ⟨a', ai⟩
          · simp only
            split <;> simp [XW.say, a', ai])
      (by
        rintro o w bs ⟨a, a'⟩ b c' d f
        obtain ⟨x, y⟩ := hI.write ms h R z0 st0 o w bs hf a b c' d f
        exact ⟨fun hh => ⟨x hh, a'⟩, y⟩)
      (by rintro o w n ⟨a, a'⟩; exact ⟨hI.should ms h R z0 st0 o w n a, a'⟩)
      (by rintro o w p ⟨a, a'⟩; exact ⟨hI.emit ms h R z0 st0 o w p a, a'⟩)
      F 0 s { c with xw := { ({ c.xw with sink := k' } : XW K V).say (.openW e none) with stop := false } } o hat
      ⟨hi, by simp [XW.say, hse], hix⟩ ⟨him.start, him.stop, him.rd, him.roff, him.res, him.cur⟩ hph
    rw [g1]
    simp only
    refine (?_ : ∃ _, _)
    cases r with
    | some x =>
      refine ⟨_, _, _, rfl, g2, Or.inl ⟨by simp, ?_⟩, ?_⟩
      · rcases g3 with ⟨o', _, _, a, _⟩ | ⟨a, _⟩
        · exact hI.i_end ms h R z0 st0 o' _ a.1
        · exact a
      · intro hfine hn hcl hlen hrk _
        exfalso
        -- a write would have to fail
        obtain ⟨r2, s2, c2, ev2, k1, _, _, k4⟩ := tarCopy_rule hT L pr Qt o0 st0 z0 R
          (fun o w => I ms h R z0 st0 o w ∧ w.stop = w.stopErr ∧ w.ck.entryIndex = (ms.length : Int)) (fun _ => False)
          (by
            rintro o c sck ⟨a, a', ai⟩ b c' d f g
            refine ⟨hI.save ms h R z0 st0 o c sck hf a b c' d f g (by rw [← a', g]) ai, ?_⟩
            unfold tarOnSave
            split
            · exact ⟨a', ai⟩
            · split
              · exact ⟨a', ai⟩
              · simp only
                split <;> simp [XW.say, a', ai])
          (by
            rintro o w bs ⟨a, a'⟩ b c' d f
            obtain ⟨x, y⟩ := hI.write ms h R z0 st0 o w bs hf a b c' d f
            exact ⟨fun hh => ⟨x hh, a'⟩, fun hh => hh (hfine.write ms h R z0 st0 o w bs hf a b c' d f)⟩)
          (by rintro o w n ⟨a, a'⟩; exact ⟨hI.should ms h R z0 st0 o w n a, a'⟩)
          (by rintro o w p ⟨a, a'⟩; exact ⟨hI.emit ms h R z0 st0 o w p a, a'⟩)
          F 0 s { c with xw := { ({ c.xw with sink := k' } : XW K V).say (.openW e none) with stop := false } } o hat
          ⟨hi, by simp [XW.say, hse], hix⟩ ⟨him.start, him.stop, him.rd, him.roff, him.res, him.cur⟩ hph
        rw [g1] at k1
        simp only [Prod.mk.injEq] at k1
        obtain ⟨e1, _⟩ := k1
        refine k4 ?_ hn hcl hlen hrk (by rw [← e1]; simp)
        rintro o c sck ⟨a, _⟩ b
        exact hfine.save ms h R z0 st0 o c sck a b
    | none =>
      refine ⟨_, _, _, rfl, g2, Or.inr ?_, fun _ _ _ _ _ _ => rfl⟩
      rcases g3 with ⟨o', a1, a2, a3, a4, a5⟩ | ⟨_, a⟩
      · obtain ⟨b1, b2, b3⟩ := a5 rfl
        by_cases hs : c'.xw.stop = true
        · left
          refine ⟨rfl, ?_, ?_⟩
          · show c'.xw.stopErr = true
            rw [← a3.2.1]; exact hs
          · exact hI.i_stop ms h R z0 st0 o' _ _ a3.1 hs (by rw [← a3.2.1]; exact hs)
        · right
          have ho : o' = z0 + T.rem st0 := by
            rcases b3 with b3 | b3
            · exact absurd b3 hs
            · exact b3
          subst ho
          have hs' : c'.xw.stop = false := by simpa using hs
          obtain ⟨e', he'⟩ : ∃ e', c'.xw.ck.entry = some e' := Option.ne_none_iff_exists'.mp (hI.i_entry _ _ _ _ _ _ _ a3.1)
          refine ⟨rfl, ?_, R ++ [e'], b1, b2, a4.roff, ?_, a2, ?_, ?_⟩
          · show c'.xw.stopErr = false
            rw [← a3.2.1]; exact hs'
          · show c'.rd = _
            rw [a4.rd]; congr 1; omega
          · show c'.res ++ c'.xw.ck.entry.toList = _
            rw [a4.res, he']; rfl
          · exact hI.finish ms h R z0 st0 _ _ e' hf a3.1 a2 hs' (by rw [← a3.2.1]; exact hs') he'
      · exact absurd rfl a

theorem phase_of {L : Lawful S Y clean} {s s' : S.St} {o o' : Nat} (h : Phase L V Qt o0 s o) (hlt : o < o') (hq : L.Quiet s → L.Quiet s') :
    Phase L V Qt o0 s' o' :=
  ⟨by have := h.1; omega, fun hqt => ⟨Or.inl (by have := h.1; omega), fun hn => hq ((h.2 hqt).2 hn)⟩⟩

/-- `tarExtract` of a regular file: from opening the writer to the end of the file or of the run. -/
theorem tarExtract_rule (hT : T.Law) (L : Lawful S Y clean) (hI : TarInv L T pr V K Qt o0 B I E P) {F : Nat}
    {ms : Members} {h : THdr} {R : List Entry} {z0 : Nat} {st0 : T.St} {o : Nat} {s : S.St} {c : TC T K V} {e : Entry}
    (hf : FileAt T clean Y ms h z0 st0) (hat : L.At s o) (hkind : e.kind = .file)
    (hopen : (K.getWriter e c.xw.sink).1 = none →
      I ms h R z0 st0 o { ({ c.xw.withEntry e with sink := (K.getWriter e c.xw.sink).2 } : XW K V).say (.openW e none) with stop := false })
    (hbad : (K.getWriter e c.xw.sink).1 ≠ none →
      E (({ c.xw.withEntry e with sink := (K.getWriter e c.xw.sink).2 } : XW K V).say (.openW e (K.getWriter e c.xw.sink).1)))
    (h1 : z0 ≤ o) (h2 : o ≤ z0 + T.rem st0) (h3 : c.rd = T.take (o - z0) st0) (h4 : c.roff = o) (h5 : c.res = R)
    (hph : Phase L V Qt o0 s o) (hse : c.xw.stopErr = false)
    (hix : c.xw.ck.entryIndex = (ms.length : Int)) :
    ∃ r s' c', tarExtract S T pr F e s c = (r, s', c') ∧ L.Live s' ∧
      ((r ≠ none ∧ E c'.xw) ∨
       (r = none ∧ c'.xw.stopErr = true ∧ P c'.xw) ∨
       (r = none ∧ c'.xw.stopErr = false ∧ L.At s' (z0 + T.rem st0) ∧ Phase L V Qt o0 s' (z0 + T.rem st0) ∧ c'.roff = (z0 + T.rem st0 : Nat) ∧
         TarPath T clean T.start Y (ms ++ [(h, (Y.drop z0).take (T.rem st0))]) c'.rd (Y.drop (z0 + T.rem st0)) ∧
         B (ms ++ [(h, (Y.drop z0).take (T.rem st0))]) c'.res c'.xw ∧ c'.xw.ck.entry = none ∧ (∃ n, T.want c'.rd = .more n))) ∧
      (TarFine T clean Y pr V K B I → L.nice → clean = true → z0 + T.rem st0 ≤ Y.length → L.rank s < F → (K.getWriter e c.xw.sink).1 = none → r = none) := by
  unfold tarExtract
  simp only [hkind]
  obtain ⟨r, s', c', g1, g2, g3, g4⟩ := tarFile_rule (c := { c with cur := true, xw := c.xw.withEntry e }) (F := F) hT L hI hf hat hopen hbad
    ⟨h1, h2, h3, h4, h5, rfl⟩ hph hse hix
  have g1' : tarFile S T pr F e s { c with cur := true, xw := { c.xw with ck := { c.xw.ck with entry := some e } } } = (r, s', c') := g1
  rw [g1']
  cases r with
  | some x =>
    refine ⟨_, _, _, rfl, g2, Or.inl ⟨by simp, ?_⟩, fun a b c d f g => by simpa using g4 a b c d f g⟩
    rcases g3 with ⟨_, a⟩ | ⟨a, _⟩ | ⟨a, _⟩
    · exact a
    all_goals cases a
  | none =>
    refine ⟨_, _, _, rfl, g2, ?_, fun _ _ _ _ _ _ => rfl⟩
    rcases g3 with ⟨a, _⟩ | ⟨_, a, b⟩ | ⟨_, a, R', b1, b2, b3, b4, b5, b6, b7⟩
    · exact absurd rfl a
    · exact Or.inr (Or.inl ⟨rfl, a, b⟩)
    · refine Or.inr (Or.inr ⟨rfl, a, b1, b2, b3, ?_, ?_, rfl, ?_⟩)
      · obtain ⟨_, hreg, st1, Y1, hp, hn⟩ := hf
        have := TarPath.file hp hn hreg (by simp; omega)
        rw [List.drop_drop] at this
        show TarPath T clean T.start Y _ c'.rd _
        rw [b4]
        exact this
      · show B _ c'.res c'.xw.cleared
        rw [b6]; exact b7
      · obtain ⟨_, _, st1, Y1, hp, hn⟩ := hf
        obtain ⟨st, hst⟩ := nextSpec_opened hT _ _ _ _ _ hn
        show ∃ n, T.want c'.rd = .more n
        rw [b4, hst]
        exact hT.member_asks st _

/-- One round of the loop, when no entry is pending. -/
theorem tarStep_rule (hT : T.Law) (L : Lawful S Y clean) (hI : TarInv L T pr V K Qt o0 B I E P) {F : Nat} {idx : Int}
    {ms : Members} {o : Nat} {s : S.St} {c : TC T K V} (hat : L.At s o) (hph : Phase L V Qt o0 s o) (hro : c.roff = o)
    (hp : TarPath T clean T.start Y ms c.rd (Y.drop o)) (hb : B ms c.res c.xw) (hent : c.xw.ck.entry = none) (hse : c.xw.stopErr = false)
    (hw : ∃ n, T.want c.rd = .more n) (hix : idx = (ms.length : Int)) :
    ∃ r s' c', tarStep S T pr F idx s c = (r, s', c') ∧ StepOut L T V K Qt o0 B E P ms.length o r s' c' ∧
      (TarFine T clean Y pr V K B I → L.nice → clean = true → ¬ TarBroken T clean Y → 2 * L.rankMax + 3 ≤ F → ∀ x, r ≠ .error x) := by
  unfold tarStep
  simp only [hent]
  have hb' := hI.b_index _ _ _ idx hb
  obtain ⟨r, s', c', g1, g2, g3, g4, g5, g6, g7, g8⟩ := tarNext_rule hT L pr o0 F s
    { c with cur := false, xw := c.xw.atIndex idx } o hat rfl hro
  have g1' : tarNext S T (tarOnSave T pr) F s { c with cur := false, xw := { c.xw with ck := { c.xw.ck with entryIndex := idx } } } = (r, s', c') := g1
  simp only [hent] at g1'
  rw [g1']
  simp only
  have hc'xw : c'.xw = c.xw.atIndex idx := g2
  have hc'res : c'.res = c.res := g3
  have hbc : B ms c'.res c'.xw := by rw [hc'xw, hc'res]; exact hb'
  have hse' : c'.xw.stopErr = false := by rw [hc'xw]; exact hse
  have hfuel : 2 * L.rankMax + 3 ≤ F → (if o < Y.length then L.rankMax + 1 else 0) + L.rank s + 1 < F := by
    intro h; have := L.rank_le hat; split <;> omega
  cases r with
  | error x =>
    simp only
    by_cases hx : x = .eof
    · subst hx
      rw [if_pos rfl]
      refine ⟨_, _, _, rfl, ⟨g5, Or.inr (Or.inr (Or.inl ⟨rfl, hse', ms, ⟨c.rd, _, hp, g7 rfl⟩, hbc⟩))⟩, by simp⟩
    · rw [if_neg hx]
      refine ⟨_, _, _, rfl, ⟨g5, Or.inl ⟨_, rfl, hI.b_end _ _ _ hbc⟩⟩, ?_⟩
      intro _ hn hcl hbr hF _ _
      exact hbr ⟨ms, c.rd, _, hp, Or.inl (g8 hn hcl (hfuel hF) x rfl hx)⟩
  | ok h =>
    simp only
    obtain ⟨o', a1, a2, a3, a4, _, a6, a7⟩ := g6 h rfl
    have hlt : o < o' := by
      rcases a6 with a6 | a6
      · obtain ⟨n, hn⟩ := hw; exact absurd hn (a6 n)
      · exact a6
    have hph' : Phase L V Qt o0 s' o' := phase_of hph hlt a7
    have hopd : ∃ n, T.want c'.rd = .more n := by
      obtain ⟨st, hst⟩ := nextSpec_opened hT _ _ _ _ _ a4
      rw [hst, ← hT.take_zero (T.opened st)]
      exact hT.member_asks st 0
    have hpo : h.typ ≠ .reg → TarPath T clean T.start Y (ms ++ [(h, [])]) c'.rd (Y.drop o') := fun ht => .other hp a4 ht
    cases ht : h.typ with
    | other =>
      rw [if_pos rfl]
      refine ⟨_, _, _, rfl, ⟨g5, Or.inr (Or.inr (Or.inr ⟨rfl, hse', ms ++ [(h, [])], o', by simp, hlt, a2, hph', a3, hpo (by simp [ht]), hI.other _ _ _ _ hbc ht ⟨_, _, hpo (by simp [ht])⟩, ?_, hopd⟩))⟩, by simp⟩
      rw [hc'xw]; exact hent
    | dir =>
      rw [if_neg (by simp)]
      have hk : (tarEntryOf h).kind = .dir := by simp [tarEntryOf, ht]
      unfold tarExtract
      simp only [hk]
      obtain ⟨d1, d2⟩ := hI.dir ms c'.res c'.xw h hbc ht ⟨_, _, hpo (by simp [ht])⟩
      have hfd := fun (hf : TarFine T clean Y pr V K B I) => hf.dir ms c'.res c'.xw h hbc ht ⟨_, _, hpo (by simp [ht])⟩
      generalize K.mkdir (tarEntryOf h) c'.xw.sink = Q at *
      obtain ⟨qe, qk⟩ := Q
      simp only at *
      cases qe with
      | some x =>
        exact ⟨_, _, _, rfl, ⟨g5, Or.inl ⟨_, rfl, d2 (by simp)⟩⟩, fun hf => by have := hfd hf; simp at this⟩
      | none =>
        exact ⟨_, _, _, rfl, ⟨g5, Or.inr (Or.inr (Or.inr ⟨rfl, hse', ms ++ [(h, [])], o', by simp, hlt, a2, hph', a3, hpo (by simp [ht]), d1 rfl, rfl, hopd⟩))⟩, by simp⟩
    | symlink =>
      rw [if_neg (by simp)]
      have hk : (tarEntryOf h).kind = .symlink := by simp [tarEntryOf, ht]
      have hl : (tarEntryOf h).link = h.link := by simp [tarEntryOf, ht]
      unfold tarExtract
      simp only [hk, hl]
      obtain ⟨d1, d2⟩ := hI.link ms c'.res c'.xw h hbc ht ⟨_, _, hpo (by simp [ht])⟩
      have hfd := fun (hf : TarFine T clean Y pr V K B I) => hf.link ms c'.res c'.xw h hbc ht ⟨_, _, hpo (by simp [ht])⟩
      generalize K.symlink (tarEntryOf h) h.link c'.xw.sink = Q at *
      obtain ⟨qe, qk⟩ := Q
      simp only at *
      cases qe with
      | some x =>
        exact ⟨_, _, _, rfl, ⟨g5, Or.inl ⟨_, rfl, d2 (by simp)⟩⟩, fun hf => by have := hfd hf; simp at this⟩
      | none =>
        exact ⟨_, _, _, rfl, ⟨g5, Or.inr (Or.inr (Or.inr ⟨rfl, hse', ms ++ [(h, [])], o', by simp, hlt, a2, hph', a3, hpo (by simp [ht]), d1 rfl, rfl, hopd⟩))⟩, by simp⟩
    | reg =>
      rw [if_neg (by simp)]
      have hk : (tarEntryOf h).kind = .file := by simp [tarEntryOf, ht]
      have hf : FileAt T clean Y ms h o' c'.rd := ⟨L.at_le a2, ht, _, _, hp, a4⟩
      obtain ⟨d1, d2⟩ := hI.file ms c'.res c'.xw h o' c'.rd hbc hse' hf
      obtain ⟨r, s2, c2, k1, k2, k3, k4⟩ := tarExtract_rule (F := F) (e := tarEntryOf h) hT L hI hf a2 hk d1 d2 (Nat.le_refl _) (by omega)
        (by rw [Nat.sub_self, hT.take_zero]) a3 rfl hph' hse' (by rw [hc'xw]; exact hix)
      rw [k1]
      simp only
      cases r with
      | some x =>
        refine ⟨_, _, _, rfl, ⟨k2, Or.inl ⟨_, rfl, ?_⟩⟩, ?_⟩
        · rcases k3 with ⟨_, a⟩ | ⟨a, _⟩ | ⟨a, _⟩
          · exact a
          all_goals cases a
        · intro hfine hn hcl hbr hF _ _
          have hlen : o' + T.rem c'.rd ≤ Y.length := by
            rcases Nat.lt_or_ge Y.length (o' + T.rem c'.rd) with hh | hh
            · exfalso
              refine hbr ⟨ms, c.rd, _, hp, Or.inr ⟨h, c'.rd, _, a4, ht, ?_⟩⟩
              have := L.at_le a2
              simp; omega
            · exact hh
          have := k4 hfine hn hcl hlen (by have := L.rank_le a2; omega) (hfine.file ms c'.res c'.xw h _ _ hbc hf)
          cases this
      | none =>
        refine ⟨_, _, _, rfl, ⟨k2, ?_⟩, by simp⟩
        rcases k3 with ⟨a, _⟩ | ⟨_, a, b⟩ | ⟨_, a, b1, b2, b3, b4, b5, b6, b7⟩
        · exact absurd rfl a
        · exact Or.inr (Or.inl ⟨rfl, a, b⟩)
        · exact Or.inr (Or.inr (Or.inr ⟨rfl, a, _, _, by simp, by omega, b1, b2, b3, b4, b5, b6, b7⟩))

/-- How the loop ends. -/
def LoopOut (L : Lawful S Y clean) (T : TarFmt) (V : SaveCons) (K : SinkM) (B : Members → List Entry → XW K V → Prop)
    (E P : XW K V → Prop) (r : Option Err) (s' : S.St) (c' : TC T K V) : Prop :=
  L.Live s' ∧
  ((r ≠ none ∧ E c'.xw) ∨ (r = none ∧ c'.xw.stopErr = true ∧ P c'.xw) ∨
   (r = none ∧ c'.xw.stopErr = false ∧ ∃ ms, TarHas T clean Y ms ∧ B ms c'.res c'.xw))

/-- The whole loop, from a state between members. -/
theorem tarLoop_rule (hT : T.Law) (L : Lawful S Y clean) (hI : TarInv L T pr V K Qt o0 B I E P) {F : Nat} :
    ∀ (fuel : Nat) (idx : Int) (ms : Members) (o : Nat) (s : S.St) (c : TC T K V), L.At s o → Phase L V Qt o0 s o → c.roff = o →
    TarPath T clean T.start Y ms c.rd (Y.drop o) → B ms c.res c.xw → c.xw.ck.entry = none → c.xw.stopErr = false →
    (∃ n, T.want c.rd = .more n) → idx = (ms.length : Int) →
    ∃ r s' c', tarLoop S T pr F fuel idx s c = (r, s', c') ∧ LoopOut L T V K B E P r s' c' ∧
      (TarFine T clean Y pr V K B I → L.nice → clean = true → ¬ TarBroken T clean Y → 2 * L.rankMax + 3 ≤ F → Y.length - o + 2 ≤ fuel → r = none) := by
  intro fuel
  induction fuel with
  | zero =>
    intro idx ms o s c hat hph hro hp hb hent hse hw hix
    exact ⟨_, _, _, rfl, ⟨L.at_live hat, Or.inl ⟨by simp, hI.b_end _ _ _ hb⟩⟩, fun _ _ _ _ _ h => by omega⟩
  | succ fuel ih =>
    intro idx ms o s c hat hph hro hp hb hent hse hw hix
    unfold tarLoop
    simp only [hse, Bool.false_eq_true, if_false]
    obtain ⟨r, s', c', g1, ⟨g2, g3⟩, g4⟩ := tarStep_rule (F := F) (idx := idx) hT L hI hat hph hro hp hb hent hse hw hix
    rw [g1]
    simp only
    rcases g3 with ⟨x, a, b⟩ | ⟨a, b, e⟩ | ⟨a, b, d⟩ | ⟨a, b, ms', o', bl, b1, b2, b3, b4, b5, b6, b7, b8⟩
    · subst a
      exact ⟨_, _, _, rfl, ⟨g2, Or.inl ⟨by simp, b⟩⟩, fun h1 h2 h3 h4 h5 _ => absurd rfl (g4 h1 h2 h3 h4 h5 x)⟩
    · subst a
      simp only
      have h0 : ∀ f, tarLoop S T pr F (f + 1) (idx + 1) s' c' = (none, s', c') := fun f => by unfold tarLoop; simp [b]
      cases fuel with
      | zero => exact ⟨_, _, _, rfl, ⟨g2, Or.inl ⟨by simp, hI.p_end _ e⟩⟩, fun _ _ _ _ _ h => by omega⟩
      | succ f => rw [h0 f]; exact ⟨_, _, _, rfl, ⟨g2, Or.inr (Or.inl ⟨rfl, b, e⟩)⟩, fun _ _ _ _ _ _ => rfl⟩
    · subst a
      exact ⟨_, _, _, rfl, ⟨g2, Or.inr (Or.inr ⟨rfl, b, d⟩)⟩, fun _ _ _ _ _ _ => rfl⟩
    · subst a
      simp only
      obtain ⟨r, s2, c2, k1, k2, k3⟩ := ih (idx + 1) ms' o' s' c' b2 b3 b4 b5 b6 b7 b b8 (by rw [hix, bl]; simp)
      exact ⟨r, s2, c2, k1, k2, fun h1 h2 h3 h4 h5 h6 => k3 h1 h2 h3 h4 h5 (by have := L.at_le b2; omega)⟩

end
end Savior
