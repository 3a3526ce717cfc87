import Verif.TarHold
/-!
# Tar extraction into path sinks, whatever fails
-/

namespace Savior

section
variable {K : SinkM} {V : SaveCons} {S : SourceM} {Y : List Byte} {clean : Bool} {T : TarFmt}

/-- The offset an entry shows when `n` bytes were written. -/
def shownAt (sh : Str → Bool) (p : Str) (n : Nat) : Int := if sh p then (n : Int) else 0

/-- A further fact about the sink that depends on how far the extraction got: `Z i o s` if it got to offset `o` of member `i`. -/
structure TarExtra (all : Members) (P : PathLaw K) where
  Z : Nat → Nat → K.St → Prop
  mono : ∀ {i o i' o' s}, Z i o s → (o' = 0 ∨ ∃ m, all[i']? = some m ∧ m.1.typ = .reg ∧ o' ≤ m.2.length) → TLe i' o' i o → Z i' o' s
  mkdir : ∀ {i m s}, P.Inv s → Z i 0 s → all[i]? = some m → m.1.typ = .dir →
    Z i 0 (K.mkdir (tarEntryOf m.1) s).2 ∧ ((K.mkdir (tarEntryOf m.1) s).1 = none → Z (i + 1) 0 (K.mkdir (tarEntryOf m.1) s).2)
  symlink : ∀ {i m s}, P.Inv s → Z i 0 s → all[i]? = some m → m.1.typ = .symlink →
    Z i 0 (K.symlink (tarEntryOf m.1) m.1.link s).2 ∧ ((K.symlink (tarEntryOf m.1) m.1.link s).1 = none → Z (i + 1) 0 (K.symlink (tarEntryOf m.1) m.1.link s).2)
  other : ∀ {i m s}, Z i 0 s → all[i]? = some m → m.1.typ = .other → Z (i + 1) 0 s
  open_ : ∀ {i n m s}, P.Inv s → Z i n s → all[i]? = some m → m.1.typ = .reg → n ≤ m.2.length →
    Z i n (K.getWriter { tarEntryOf m.1 with woff := shownAt P.shown m.1.name n } s).2
  write : ∀ {i n m s bs}, P.Inv s → Z i n s → all[i]? = some m → m.1.typ = .reg → (P.shown m.1.name = true → P.At s m.1.name n) →
    (P.shown m.1.name = false → P.Deaf s) → bs = (m.2.drop n).take bs.length → n + bs.length ≤ m.2.length →
    Z i n (K.write bs s).2 ∧ ((K.write bs s).1.2.2 = none → Z i (n + bs.length) (K.write bs s).2)
  close : ∀ {i o s}, Z i o s → Z i o (K.closeWriter s)
  finish : ∀ {i m s}, all[i]? = some m → m.1.typ = .reg → Z i m.2.length s → Z (i + 1) 0 s

/-- Nothing further. -/
def TarExtra.nothing (all : Members) (P : PathLaw K) : TarExtra all P where
  Z _ _ _ := True
  mono _ _ _ := trivial
  mkdir _ _ _ _ := ⟨trivial, fun _ => trivial⟩
  symlink _ _ _ _ := ⟨trivial, fun _ => trivial⟩
  other _ _ _ := trivial
  open_ _ _ _ _ _ := trivial
  write _ _ _ _ _ _ _ _ := ⟨trivial, fun _ => trivial⟩
  close _ := trivial
  finish _ _ _ := trivial

theorem TarExtra.zero {all : Members} {P : PathLaw K} (X : TarExtra all P) {i o : Nat} {s : K.St} (h : X.Z i o s) : X.Z i 0 s :=
  X.mono h (Or.inl rfl) (Or.inr ⟨rfl, Nat.zero_le _⟩)

/-- A checkpoint without tar data, which is ignored. -/
def NoTarData (c : ECkpt) : Prop := ∀ R t, c.data ≠ some ⟨some R, some t⟩

/-- A checkpoint for offset `n` of member `i`. -/
def TarCkPos (T : TarFmt) (clean : Bool) (Y : List Byte) (Ck : Ckpt → Nat → Prop) (P : PathLaw K) (c : ECkpt) (i n : Nat) : Prop :=
  (∃ ms h z0 st0 o, TarCkAt T clean Y Ck c ms h (tarFiles P ms) z0 st0 o { tarEntryOf h with woff := shownAt P.shown h.name (o - z0) } ∧
    i = ms.length ∧ n = o - z0) ∨ (NoTarData c ∧ i = 0 ∧ n = 0)

/-- The checkpoints usable so far are not after `(i, o)`. -/
abbrev TarCur (T : TarFmt) (clean : Bool) (Y : List Byte) (Ck : Ckpt → Nat → Prop) (P : PathLaw K) (before : List ECkpt) (log : List Ev) (i o : Nat) : Prop :=
  Upto (TarCkPos T clean Y Ck P) (before ++ savedCks log) i o

theorem tarCur_say {Ck : Ckpt → Nat → Prop} {P : PathLaw K} {before : List ECkpt} {log : List Ev} {i o : Nat} {ev : Ev}
    (h : TarCur T clean Y Ck P before log i o) (hev : ∀ ck a, ev ≠ .save ck a) : TarCur T clean Y Ck P before (log ++ [ev]) i o := by
  unfold TarCur; rw [savedCks_say _ _ hev]; exact h

/-- Between members. -/
structure TPB (all : Members) (Ck : Ckpt → Nat → Prop) (T : TarFmt) (clean : Bool) (Y : List Byte) (P : PathLaw K) (X : TarExtra all P) (before : List ECkpt)
    (ms : Members) (R : List Entry) (w : XW K V) : Prop where
  inv : P.Inv w.sink
  holds : THolds all P.shown (P.node w.sink) ms.length 0
  ext : X.Z ms.length 0 w.sink
  cur : TarCur T clean Y Ck P before w.log ms.length 0
  listed : R = tarFiles P ms

/-- Within a file. -/
structure TPI (all : Members) (Ck : Ckpt → Nat → Prop) (T : TarFmt) (clean : Bool) (Y : List Byte) (P : PathLaw K) (X : TarExtra all P) (before : List ECkpt)
    (ms : Members) (h : THdr) (R : List Entry) (z0 : Nat) (st0 : T.St) (o : Nat) (w : XW K V) : Prop where
  file : FileAt T clean Y ms h z0 st0
  lo : z0 ≤ o
  entry : w.ck.entry = some { tarEntryOf h with woff := shownAt P.shown h.name (o - z0) }
  inv : P.Inv w.sink
  holds : THolds all P.shown (P.node w.sink) ms.length (o - z0)
  ext : X.Z ms.length (o - z0) w.sink
  cur : TarCur T clean Y Ck P before w.log ms.length (o - z0)
  listed : R = tarFiles P ms
  node : P.shown h.name = true → ∃ c, P.node w.sink h.name = some (.file c) ∧ c.length = o - z0 ∧ P.At w.sink h.name (o - z0) ∧
    (LastOf all ms.length h.name → c = (Y.drop z0).take (o - z0))
  deaf : P.shown h.name = false → P.Deaf w.sink

/-- However a run ends. -/
def TPE (all : Members) (Ck : Ckpt → Nat → Prop) (T : TarFmt) (clean : Bool) (Y : List Byte) (P : PathLaw K) (X : TarExtra all P) (before : List ECkpt) (w : XW K V) : Prop :=
  P.Inv w.sink ∧ ∃ i o, TarCur T clean Y Ck P before w.log i o ∧ THolds all P.shown (P.node w.sink) i o ∧ X.Z i o w.sink

/-- How a stopped run ends. -/
def TPP (all : Members) (Ck : Ckpt → Nat → Prop) (T : TarFmt) (clean : Bool) (Y : List Byte) (P : PathLaw K) (X : TarExtra all P) (before : List ECkpt) (w : XW K V) : Prop :=
  TPE all Ck T clean Y P X before w ∧ NoTarData w.ck

theorem tarFiles_snoc (P : PathLaw K) (ms : Members) (m : THdr × List Byte) : tarFiles P (ms ++ [m]) =
    tarFiles P ms ++ (if m.1.typ = .reg then [{ tarEntryOf m.1 with woff := shownAt P.shown m.1.name m.2.length }] else []) := by
  unfold tarFiles shownAt
  by_cases hr : m.1.typ = .reg <;> simp [hr]

theorem goal_fits {all : Members} {P : PathLaw K} (hfit : P.FitsMembers all) {m : THdr × List Byte} (hm : m ∈ all) {p : Str} {n : PNode}
    (hg : tarGoal m = some (p, n)) : P.Fits p (tarEntryOf m.1).kind := by
  unfold tarGoal at hg
  split at hg
  · cases hg
  · rename_i hne
    simp only [Option.some.injEq, Prod.mk.injEq] at hg
    rw [← hg.1]; exact hfit m hm hne

/-- Opening the writer of a file of which `n` bytes are in place. -/
theorem tpOpen {all : Members} {P : PathLaw K} (hfit : P.FitsMembers all) {i n : Nat} {m : THdr × List Byte} (hm : all[i]? = some m) (hr : m.1.typ = .reg)
    (hn : n ≤ m.2.length) {s : K.St} (hinv : P.Inv s) (hh : THolds all P.shown (P.node s) i n) {e : Entry}
    (he : e = { tarEntryOf m.1 with woff := shownAt P.shown m.1.name n }) :
    P.Inv (K.getWriter e s).2 ∧ THolds all P.shown (P.node (K.getWriter e s).2) i n ∧
    ((K.getWriter e s).1 = none →
      (P.shown m.1.name = true → ∃ c, P.node (K.getWriter e s).2 m.1.name = some (.file c) ∧ c.length = n ∧ P.At (K.getWriter e s).2 m.1.name n ∧
        (LastOf all i m.1.name → c = m.2.take n)) ∧
      (P.shown m.1.name = false → P.Deaf (K.getWriter e s).2)) := by
  have hmem := List.mem_of_getElem? hm
  have hp : e.path = m.1.name := by rw [he]; rfl
  have hk : (tarEntryOf m.1).kind = .file := by simp [tarEntryOf, hr]
  have hf : P.Fits e.path .file := by rw [hp, ← hk]; exact hfit m hmem (by rw [hr]; simp)
  have hinv' := P.open_inv e s hinv hf
  have hfr : ∀ m' ∈ all, ∀ p n', tarGoal m' = some (p, n') → ∀ n', p ≠ m.1.name → P.node s p = some n' → P.node (K.getWriter e s).2 p = some n' := by
    intro m' hm' p n' hg n'' hne
    exact P.open_frame e s p _ n'' hinv hf (goal_fits hfit hm' hg) (by rw [hp]; exact hne)
  have hwoff : P.shown m.1.name = true → e.woff = (n : Int) := by intro hs; rw [he]; simp [shownAt, hs]
  refine ⟨hinv', hh.frame hm (tarGoal_reg hr) hfr ?_, fun hok => ⟨fun hs => ?_, fun hs => ?_⟩⟩
  · intro hpos _ hs hu
    obtain ⟨c0, k1, k2, k3⟩ := hh.part m hm hr hs hu hpos
    cases hg : (K.getWriter e s).1 with
    | none =>
      obtain ⟨c, g1, g2, _, g4⟩ := P.open_ok e s n hinv hf (by rw [hp]; exact hs) (hwoff hs) hg
      rw [hp] at g1 g4
      exact ⟨c, g1, by omega, by rw [g4 c0 k1 k2, List.take_take, Nat.min_self, k3]⟩
    | some x =>
      obtain ⟨c, g1, g2, g3⟩ := P.open_fail e s n hinv hf (by rw [hp]; exact hs) (hwoff hs) (by rw [hg]; simp) c0 (by rw [hp]; exact k1) k2
      rw [hp] at g1
      exact ⟨c, g1, g2, by rw [g3, k3]⟩
  · obtain ⟨c, g1, g2, g3, g4⟩ := P.open_ok e s n hinv hf (by rw [hp]; exact hs) (hwoff hs) hok
    rw [hp] at g1 g3 g4
    refine ⟨c, g1, g2, g3, fun hu => ?_⟩
    rcases Nat.eq_zero_or_pos n with hz | hz
    · subst hz; simpa using g2
    · obtain ⟨c0, k1, k2, k3⟩ := hh.part m hm hr hs hu hz
      rw [g4 c0 k1 k2, k3]
  · exact P.open_deaf e s hinv hf (by rw [hp]; exact hs) hok

theorem take_take_drop {l : List Byte} {z r n : Nat} (h : n ≤ r) : ((l.drop z).take r).take n = (l.drop z).take n := by
  rw [List.take_take, Nat.min_eq_left h]

/-- The invariant is carried through a run. -/
theorem tarPath_inv {all : Members} (hall : TarHas T clean Y all) (P : PathLaw K) (hfit : P.FitsMembers all) (L : Lawful S Y clean) (pr : Ckpt → Int × Int)
    (Z : TarExtra all P) (before : List ECkpt) (o0 : Nat) :
    TarInv L T pr V K False o0 (TPB all L.CkFor T clean Y P Z before) (TPI all L.CkFor T clean Y P Z before) (TPE all L.CkFor T clean Y P Z before)
      (TPP all L.CkFor T clean Y P Z before) where
  p_end _ h := h.1
  b_index _ _ _ _ h := ⟨h.inv, h.holds, h.ext, h.cur, h.listed⟩
  b_end _ _ _ h := ⟨h.inv, _, _, h.cur, h.holds, h.ext⟩
  dir ms R w h hb ht hp := by
    obtain ⟨st, Y', hp⟩ := hp
    have hm := tarPath_next hall hp
    have hmem := List.mem_of_getElem? hm
    have hk : (tarEntryOf h).kind = .dir := by simp [tarEntryOf, ht]
    have hf : P.Fits (tarEntryOf h).path .dir := by rw [← hk]; exact hfit (h, []) hmem (by simp [ht])
    have hg : tarGoal (h, []) = some (h.name, .dir) := by simp [tarGoal, tarNodeOf, ht]
    have hinv := P.mkdir_inv (tarEntryOf h) w.sink hb.inv hf
    have hext := Z.mkdir hb.inv hb.ext hm ht
    rw [show ms.length + 1 = (ms ++ [(h, [])]).length from by simp] at hext
    have hfr : ∀ m' ∈ all, ∀ p n', tarGoal m' = some (p, n') → ∀ n', p ≠ h.name → P.node w.sink p = some n' →
        P.node (K.mkdir (tarEntryOf h) w.sink).2 p = some n' := by
      intro m' hm' p n' hg' n'' hne
      exact P.mkdir_frame _ w.sink p _ n'' hb.inv hf (goal_fits hfit hm' hg') hne
    refine ⟨fun hok => ⟨hinv, ?_, hext.2 hok, ?_, ?_⟩, fun _ => ⟨hinv, ms.length, 0, tarCur_say hb.cur (by simp), ?_, hext.1⟩⟩
    · rw [List.length_append]
      refine hb.holds.next hm ?_ (by rw [hg]; simp) ?_
      · intro p n hg'; rw [hg] at hg'; simp only [Option.some.injEq, Prod.mk.injEq] at hg'
        rw [← hg'.1]; exact hfr
      · intro p n hg' hs _; rw [hg] at hg'; simp only [Option.some.injEq, Prod.mk.injEq] at hg'
        rw [← hg'.1, ← hg'.2]
        exact P.mkdir_ok _ _ hb.inv hf (by rw [← hg'.1] at hs; exact hs) hok
    · exact .le (tarCur_say hb.cur (by simp)) (Or.inl (by simp))
    · rw [tarFiles_snoc]; simp [ht, hb.listed]
    · exact hb.holds.frame hm hg hfr (fun h => absurd h (Nat.lt_irrefl 0))
  link ms R w h hb ht hp := by
    obtain ⟨st, Y', hp⟩ := hp
    have hm := tarPath_next hall hp
    have hmem := List.mem_of_getElem? hm
    have hk : (tarEntryOf h).kind = .symlink := by simp [tarEntryOf, ht]
    have hf : P.Fits (tarEntryOf h).path .symlink := by rw [← hk]; exact hfit (h, []) hmem (by simp [ht])
    have hg : tarGoal (h, []) = some (h.name, .link h.link) := by simp [tarGoal, tarNodeOf, ht]
    have hinv := P.symlink_inv (tarEntryOf h) h.link w.sink hb.inv hf
    have hext := Z.symlink hb.inv hb.ext hm ht
    rw [show ms.length + 1 = (ms ++ [(h, [])]).length from by simp] at hext
    have hfr : ∀ m' ∈ all, ∀ p n', tarGoal m' = some (p, n') → ∀ n', p ≠ h.name → P.node w.sink p = some n' →
        P.node (K.symlink (tarEntryOf h) h.link w.sink).2 p = some n' := by
      intro m' hm' p n' hg' n'' hne
      exact P.symlink_frame _ _ w.sink p _ n'' hb.inv hf (goal_fits hfit hm' hg') hne
    refine ⟨fun hok => ⟨hinv, ?_, hext.2 hok, ?_, ?_⟩, fun _ => ⟨hinv, ms.length, 0, tarCur_say hb.cur (by simp), ?_, hext.1⟩⟩
    · rw [List.length_append]
      refine hb.holds.next hm ?_ (by rw [hg]; simp) ?_
      · intro p n hg'; rw [hg] at hg'; simp only [Option.some.injEq, Prod.mk.injEq] at hg'
        rw [← hg'.1]; exact hfr
      · intro p n hg' hs _; rw [hg] at hg'; simp only [Option.some.injEq, Prod.mk.injEq] at hg'
        rw [← hg'.1, ← hg'.2]
        exact P.symlink_ok _ _ _ hb.inv hf (by rw [← hg'.1] at hs; exact hs) rfl hok
    · exact .le (tarCur_say hb.cur (by simp)) (Or.inl (by simp))
    · rw [tarFiles_snoc]; simp [ht, hb.listed]
    · exact hb.holds.frame hm hg hfr (fun h => absurd h (Nat.lt_irrefl 0))
  other ms R w h hb ht hp := by
    obtain ⟨st, Y', hp⟩ := hp
    have hm := tarPath_next hall hp
    have hg : tarGoal (h, []) = none := by simp [tarGoal, ht]
    refine ⟨hb.inv, ?_, by rw [List.length_append]; exact Z.other hb.ext hm ht, .le hb.cur (Or.inl (by simp)), ?_⟩
    · rw [List.length_append]
      exact hb.holds.next hm (by rw [hg]; simp) (fun _ => rfl) (by rw [hg]; simp)
    · rw [tarFiles_snoc]; simp [ht, hb.listed]
  file ms R w h z0 st0 hb hse hf := by
    obtain ⟨hlen, hm⟩ := fileAt_next hall hf
    have he : tarEntryOf h = { tarEntryOf h with woff := shownAt P.shown h.name 0 } := by
      have : shownAt P.shown h.name 0 = 0 := by unfold shownAt; split <;> rfl
      rw [this]; rfl
    obtain ⟨g1, g2, g3⟩ := tpOpen hfit hm hf.2.1 (Nat.zero_le _) hb.inv hb.holds he
    have gx := Z.open_ hb.inv hb.ext hm hf.2.1 (Nat.zero_le _)
    rw [← he] at gx
    refine ⟨fun hok => ?_, fun _ => ⟨g1, _, _, tarCur_say hb.cur (by simp), g2, gx⟩⟩
    obtain ⟨g4, g5⟩ := g3 hok
    refine ⟨hf, Nat.le_refl _, ?_, g1, ?_, ?_, ?_, hb.listed, ?_, g5⟩
    · rw [Nat.sub_self, ← he]; rfl
    · rw [Nat.sub_self]; exact g2
    · rw [Nat.sub_self]; exact gx
    · rw [Nat.sub_self]; exact tarCur_say hb.cur (by simp)
    · intro hs
      obtain ⟨c, a1, a2, a3, a4⟩ := g4 hs
      rw [Nat.sub_self]
      exact ⟨c, a1, a2, a3, fun hu => by rw [a4 hu]; simp⟩
  i_entry _ _ _ _ _ _ _ h := by rw [h.entry]; simp
  save ms h R z0 st0 o c sck hf hi him _ _ hck hst hse hix := by
    unfold tarOnSave
    rw [him.cur]
    simp only [Bool.true_eq_false, if_false]
    split
    · exact hi
    · rename_i im him2
      generalize hck2 : ({ c.xw.ck with srcCk := some sck, data := some ⟨some c.res, some ⟨c.roff, im⟩⟩, progress := pr sck } : ECkpt) = ck
      have hat : TarCkPos T clean Y L.CkFor P ck ms.length (o - z0) := by
        subst hck2
        refine Or.inl ⟨ms, h, z0, st0, o, ⟨hf, him.start, him.stop, ⟨im, ?_, ?_⟩, ⟨sck, rfl, hck⟩, hi.entry, hix, ?_⟩, rfl, rfl⟩
        · show some (TarState.mk (some c.res) (some ⟨c.roff, im⟩)) = _
          rw [him.res, him.roff, hi.listed]
        · rw [← him.rd]; exact him2
        · simp [tarEntryOf, hf.2.1]
      have hent : ck.entry = some { tarEntryOf h with woff := shownAt P.shown h.name (o - z0) } := by subst hck2; exact hi.entry
      have hcur : ∀ a, TarCur T clean Y L.CkFor P before (c.xw.log ++ [.save ck a]) ms.length (o - z0) := by
        intro a
        unfold TarCur
        rw [savedCks_save, ← List.append_assoc]
        exact .snoc hi.cur hat
      split <;> exact ⟨hi.file, hi.lo, hent, hi.inv, hi.holds, hi.ext, hcur _, hi.listed, hi.node, hi.deaf⟩
  write ms h R z0 st0 o w bs hf hi hbs hlen hstop hlo := by
    obtain ⟨hle, hm⟩ := fileAt_next hall hf
    have hmem := List.mem_of_getElem? hm
    have hr := hf.2.1
    have hk : (tarEntryOf h).kind = .file := by simp [tarEntryOf, hr]
    have hfits : P.Fits h.name .file := by rw [← hk]; exact hfit _ hmem (by simp [hr])
    have hcur := tarCur_say (ev := .write bs (K.write bs w.sink).1.1 (K.write bs w.sink).1.2.2) hi.cur (by simp)
    have hsub : o + bs.length - z0 = (o - z0) + bs.length := by omega
    have hbs' : bs = (((Y.drop z0).take (T.rem st0)).drop (o - z0)).take bs.length := by
      rw [List.drop_take, List.take_take, List.drop_drop, show z0 + (o - z0) = o from by omega, Nat.min_eq_left (by omega)]
      exact hbs
    obtain ⟨x1, x2⟩ := Z.write (bs := bs) hi.inv hi.ext hm hr (fun hs => by obtain ⟨c, _, _, h, _⟩ := hi.node hs; exact h) hi.deaf hbs' (by simp; omega)
    cases hs : P.shown h.name with
    | true =>
      have hso : ∀ n, shownAt P.shown h.name n = n := by intro n; unfold shownAt; rw [hs]; rfl
      obtain ⟨c, k2, k3, k4, k5⟩ := hi.node hs
      rw [← k3] at k4
      obtain ⟨k, g1, g2, g3, g4, g5, g0, g6⟩ := P.write_spec bs w.sink h.name c hi.inv hfits k2 k4
      have hfr : ∀ m' ∈ all, ∀ p n', tarGoal m' = some (p, n') → ∀ n', p ≠ h.name → P.node w.sink p = some n' → P.node (K.write bs w.sink).2 p = some n' :=
        fun m' hm' p n' hg n'' hne => g6 p _ n'' (goal_fits hfit hm' hg) hne
      refine ⟨fun hok => ?_, fun _ => ?_⟩
      · have hok' : (K.write bs w.sink).1.2.2 = none := hok
        obtain ⟨hk, _⟩ := g5 hok'
        subst hk
        rw [List.take_length] at g2
        have hcc : LastOf all ms.length h.name → c ++ bs = (Y.drop z0).take (o - z0 + bs.length) := by
          intro hu
          rw [List.take_add, List.drop_drop, show z0 + (o - z0) = o from by omega, ← hbs, ← k5 hu]
        refine ⟨hf, by omega, ?_, g0, ?_, by rw [hsub]; exact x2 hok', ?_, hi.listed, fun _ => ⟨c ++ bs, g2, by simp; omega, ?_, ?_⟩, fun h => (by rw [hs] at h; cases h)⟩
        · show w.ck.entry.map _ = _
          rw [hi.entry, g4, hso, hso, hsub]
          simp
        · show THolds all P.shown (P.node (K.write bs w.sink).2) _ _
          rw [hsub]
          refine ⟨(hi.holds.zero.frame hm (tarGoal_reg hr) hfr (fun h => absurd h (Nat.lt_irrefl 0))).done, ?_⟩
          intro m hm' _ _ hu _
          obtain rfl : (h, _) = m := Option.some.inj (hm.symm.trans hm')
          refine ⟨c ++ bs, g2, by simp; omega, ?_⟩
          rw [hcc hu, List.take_take, Nat.min_self]
          exact (take_take_drop (by omega)).symm
        · rw [hsub]; exact .le hcur (Or.inr ⟨rfl, by omega⟩)
        · show P.At (K.write bs w.sink).2 h.name _
          rw [hsub, ← k3]; exact g3
        · rw [hsub]; exact hcc
      · obtain ⟨c1, c2⟩ := P.close_spec _ g0
        refine ⟨c1, ms.length, o - z0, hcur, ?_, Z.close x1⟩
        show THolds all P.shown (P.node (K.closeWriter (K.write bs w.sink).2)) _ _
        rw [c2]
        refine hi.holds.frame hm (tarGoal_reg hr) hfr ?_
        intro _ _ _ hu
        refine ⟨_, g2, by simp; omega, ?_⟩
        rw [← k3, List.take_left]
        show c = ((Y.drop z0).take (T.rem st0)).take c.length
        rw [take_take_drop (by omega), k3]
        exact k5 hu
    | false =>
      have hso : ∀ n, shownAt P.shown h.name n = 0 := by intro n; unfold shownAt; rw [hs]; rfl
      obtain ⟨d1, d2, d3, d4⟩ := P.write_deaf bs w.sink hi.inv (hi.deaf hs)
      have hhold : ∀ n, THolds all P.shown (P.node (K.write bs w.sink).2) ms.length n := by
        intro n
        rw [d3]
        refine ⟨hi.holds.done, ?_⟩
        intro m hm' _ hs'
        obtain rfl : (h, _) = m := Option.some.inj (hm.symm.trans hm')
        rw [hs] at hs'; cases hs'
      refine ⟨fun hok => ?_, fun _ => ?_⟩
      · refine ⟨hf, by omega, ?_, d1, hhold _, by rw [hsub]; exact x2 hok, ?_, hi.listed, fun h => (by rw [hs] at h; cases h), fun _ => d2⟩
        · show w.ck.entry.map _ = _
          rw [hi.entry, d4, hso, hso]
          simp
        · rw [hsub]; exact .le hcur (Or.inr ⟨rfl, by omega⟩)
      · obtain ⟨c1, c2⟩ := P.close_spec _ d1
        refine ⟨c1, ms.length, o - z0, hcur, ?_, Z.close x1⟩
        show THolds all P.shown (P.node (K.closeWriter (K.write bs w.sink).2)) _ _
        rw [c2]; exact hhold _
  should _ _ _ _ _ _ _ _ h := ⟨h.file, h.lo, h.entry, h.inv, h.holds, h.ext, h.cur, h.listed, h.node, h.deaf⟩
  emit _ _ _ _ _ _ _ _ h := ⟨h.file, h.lo, h.entry, h.inv, h.holds, h.ext, tarCur_say h.cur (by simp), h.listed, h.node, h.deaf⟩
  i_end ms h R z0 st0 o w hi := by
    obtain ⟨c1, c2⟩ := P.close_spec _ hi.inv
    refine ⟨c1, ms.length, o - z0, hi.cur, ?_, Z.close hi.ext⟩
    show THolds all P.shown (P.node (K.closeWriter w.sink)) _ _
    rw [c2]; exact hi.holds
  i_stop ms h R z0 st0 o w p hi _ _ := by
    obtain ⟨c1, c2⟩ := P.close_spec _ hi.inv
    refine ⟨⟨c1, ms.length, o - z0, tarCur_say hi.cur (by simp), ?_, Z.close hi.ext⟩, fun R t h => (by cases h)⟩
    show THolds all P.shown (P.node (K.closeWriter w.sink)) _ _
    rw [c2]; exact hi.holds
  finish ms h R z0 st0 w p e hf hi hlen _ _ he := by
    obtain ⟨_, hm⟩ := fileAt_next hall hf
    have hr := hf.2.1
    have hsub : z0 + T.rem st0 - z0 = T.rem st0 := by omega
    have hl : ((Y.drop z0).take (T.rem st0)).length = T.rem st0 := by simp; omega
    obtain ⟨c1, c2⟩ := P.close_spec _ hi.inv
    have hg := tarGoal_reg (m := (h, (Y.drop z0).take (T.rem st0))) hr
    have hx := Z.finish hm hr (by rw [hl, ← hsub]; exact hi.ext)
    refine ⟨c1, ?_, by rw [List.length_append]; exact Z.close hx, .le (tarCur_say hi.cur (by simp)) (Or.inl (by simp)), ?_⟩
    · show THolds all P.shown (P.node (K.closeWriter w.sink)) _ _
      rw [c2, List.length_append]
      refine hi.holds.zero.next hm (fun _ _ _ _ _ _ _ _ _ _ h => h) (fun _ => rfl) ?_
      intro p n hg' hs hu
      rw [hg] at hg'
      simp only [Option.some.injEq, Prod.mk.injEq] at hg'
      obtain ⟨rfl, rfl⟩ := hg'
      obtain ⟨c, a1, a2, a3, a4⟩ := hi.node hs
      rw [a1, a4 hu, hsub]
    · rw [tarFiles_snoc, hi.listed]
      have h2 := hi.entry
      rw [he] at h2
      simp only [Option.some.injEq] at h2
      rw [h2, hsub]
      simp only [hr, if_true, hl]

/-- What can be resumed from. -/
def TarOKX (all : Members) (Ck : Ckpt → Nat → Prop) (T : TarFmt) (clean : Bool) (Y : List Byte) (P : PathLaw K) (Z : TarExtra all P) (hist : List ECkpt) (k : K.St) : Prop :=
  P.Inv k ∧ ∃ i o, Upto (TarCkPos T clean Y Ck P) hist i o ∧ THolds all P.shown (P.node k) i o ∧ Z.Z i o k

abbrev TarOK (all : Members) (Ck : Ckpt → Nat → Prop) (T : TarFmt) (clean : Bool) (Y : List Byte) (P : PathLaw K) (hist : List ECkpt) (k : K.St) : Prop :=
  TarOKX all Ck T clean Y P (.nothing all P) hist k

theorem TarCkPos.mono {Ck Ck' : Ckpt → Nat → Prop} (hm : ∀ c o, Ck c o → Ck' c o) {P : PathLaw K} {c : ECkpt} {i n : Nat} (h : TarCkPos T clean Y Ck P c i n) :
    TarCkPos T clean Y Ck' P c i n := by
  rcases h with ⟨ms, h, z0, st0, o, a, b⟩ | h
  · exact Or.inl ⟨ms, h, z0, st0, o, a.mono hm, b⟩
  · exact Or.inr h

theorem Upto.mono {At At' : ECkpt → Nat → Nat → Prop} (hm : ∀ c i o, At c i o → At' c i o) {l : List ECkpt} {i o : Nat} (h : Upto At l i o) : Upto At' l i o := by
  induction h with
  | nil => exact .nil _ _
  | le _ hle ih => exact .le ih hle
  | snoc _ hck ih => exact .snoc ih (hm _ _ _ hck)

/-- Where a run starts. -/
theorem tarRun_start {Ck : Ckpt → Nat → Prop} {F : Nat} {all : Members} (hall : TarHas T clean Y all) (P : PathLaw K) (hfit : P.FitsMembers all) (Z : TarExtra all P)
    (X : TarSrc Y clean Ck F) (hist before : List ECkpt) (ck : Option ECkpt) (k : K.St) (u : V.St)
    (hok : TarOKX all Ck T clean Y P Z hist k) (hck : ChooseCk hist ck before) :
    ∃ o0, TarStart X.L T F V k u (TPB all X.L.CkFor T clean Y P Z before) (TPI all X.L.CkFor T clean Y P Z before)
      (TPE all X.L.CkFor T clean Y P Z before) ck o0 := by
  have hup : ∀ {l i o}, Upto (TarCkPos T clean Y Ck P) l i o → Upto (TarCkPos T clean Y X.L.CkFor P) l i o :=
    fun h => h.mono fun _ _ _ h => h.mono fun c o => (X.family c o).mpr
  obtain ⟨hinv, i0, o0, hh, hhold, hext⟩ := hok
  have fresh : ∀ {ck : Option ECkpt}, (∀ c, ck = some c → NoTarData c) → Upto (TarCkPos T clean Y Ck P) before 0 0 →
      TarStart X.L T F V k u (TPB all X.L.CkFor T clean Y P Z before) (TPI all X.L.CkFor T clean Y P Z before) (TPE all X.L.CkFor T clean Y P Z before) ck 0 := by
    intro ck hnd hb
    refine .fresh hnd ⟨hinv, .nothing .., Z.mono hext (Or.inl rfl) (by unfold TLe; show 0 < i0 ∨ 0 = i0 ∧ 0 ≤ o0; omega), ?_, rfl⟩
    show Upto _ (before ++ savedCks []) 0 0
    rw [show savedCks [] = [] from rfl, List.append_nil]
    exact hup hb
  cases ck with
  | none =>
    cases hck
    exact ⟨0, fresh (by simp) (.nil _ _)⟩
  | some c =>
    obtain ⟨i, n, hp, hle, hub⟩ := hh.choose hck
    rcases hp with ⟨ms, h, z0, st0, o, ha, rfl, rfl⟩ | ⟨hnd, rfl, rfl⟩
    · have ha' := ha.mono fun c o => (X.family c o).mpr
      obtain ⟨hlen, hm⟩ := fileAt_next hall ha.file
      have hn : o - z0 ≤ ((Y.drop z0).take (T.rem st0)).length := by
        have := ha.hi
        have := ha.lo
        simp; omega
      have hhold' := hhold.mono (Or.inr ⟨_, hm, ha.file.2.1, hn⟩) hle
      have hext' := Z.mono hext (Or.inr ⟨_, hm, ha.file.2.1, hn⟩) hle
      have hx2 := Z.open_ hinv hext' hm ha.file.2.1 hn
      have hcur : TarCur T clean Y X.L.CkFor P before [] ms.length (o - z0) := by
        show Upto _ (before ++ savedCks []) _ _
        rw [show savedCks [] = [] from rfl, List.append_nil]
        exact hup hub
      obtain ⟨g1, g2, g3⟩ := tpOpen hfit hm ha.file.2.1 hn hinv hhold' rfl
      refine ⟨o, .again ha' ⟨hinv, _, _, hcur, hhold', hext'⟩ (fun hok => ?_) (fun _ => ⟨g1, _, _, tarCur_say hcur (by simp), g2, hx2⟩)⟩
      obtain ⟨g4, g5⟩ := g3 hok
      refine ⟨ha.file, ha.lo, ha.entry, g1, g2, hx2, tarCur_say hcur (by simp), rfl, fun hs => ?_, g5⟩
      obtain ⟨c, a1, a2, a3, a4⟩ := g4 hs
      refine ⟨c, a1, a2, a3, fun hu => ?_⟩
      rw [a4 hu]
      exact take_take_drop (by have := ha.hi; omega)
    · exact ⟨0, fresh (fun c' h => by cases h; exact hnd) hub⟩

/-- What one run does. -/
theorem tarRun_pathX {Ck : Ckpt → Nat → Prop} {F : Nat} (hT : T.Law) {all : Members} (hall : TarHas T clean Y all) (P : PathLaw K) (hfit : P.FitsMembers all) (Z : TarExtra all P)
    (X : TarSrc Y clean Ck F) (pr : Ckpt → Int × Int) (hist before : List ECkpt) (ck : Option ECkpt) (k : K.St) (u : V.St)
    (hok : TarOKX all Ck T clean Y P Z hist k) (hck : ChooseCk hist ck before) :
    TarOKX all Ck T clean Y P Z (before ++ savedCks (tarRun X T pr K V ck k u).2.2.log) (tarRun X T pr K V ck k u).2.2.sink ∧
    (∀ res, (tarRun X T pr K V ck k u).1 = .ok res → THolds all P.shown (P.node (tarRun X T pr K V ck k u).2.2.sink) all.length 0 ∧ Z.Z all.length 0 (tarRun X T pr K V ck k u).2.2.sink ∧ res = tarFiles P all) ∧
    ((tarRun X T pr K V ck k u).1 = .error .stop → NoTarData (tarRun X T pr K V ck k u).2.2.ck) := by
  have hdown : ∀ {l i o}, Upto (TarCkPos T clean Y X.L.CkFor P) l i o → Upto (TarCkPos T clean Y Ck P) l i o :=
    fun h => h.mono fun _ _ _ h => h.mono fun c o => (X.family c o).mp
  obtain ⟨o1, hst⟩ := tarRun_start hall P hfit Z X hist before ck k u hok hck
  obtain ⟨r, s', w', g1, g2, _⟩ := tarResume_rule (Qt := False) hT X.L (tarPath_inv hall P hfit X.L pr Z before o1) X.budget X.good (by simp) hst
  have g1' : tarRun X T pr K V ck k u = (r, s', w') := g1
  rw [g1']
  rcases g2 with ⟨x, a, ⟨b1, i, o, b2, b3, b4⟩, b⟩ | ⟨res, a, ms, b, c⟩
  · subst a
    refine ⟨⟨b1, i, o, hdown b2, b3, b4⟩, by simp, fun h => ?_⟩
    simp only [Except.error.injEq] at h
    exact (b h).2.2
  · subst a
    have := tarHas_det b hall
    subst this
    refine ⟨⟨c.inv, _, _, hdown c.cur, c.holds, c.ext⟩, ?_, by simp⟩
    intro res' h
    cases h
    exact ⟨c.holds, c.ext, c.listed⟩

/-- Likewise, without further facts. -/
theorem tarRun_path {Ck : Ckpt → Nat → Prop} {F : Nat} (hT : T.Law) {all : Members} (hall : TarHas T clean Y all) (P : PathLaw K) (hfit : P.FitsMembers all)
    (X : TarSrc Y clean Ck F) (pr : Ckpt → Int × Int) (hist before : List ECkpt) (ck : Option ECkpt) (k : K.St) (u : V.St)
    (hok : TarOK all Ck T clean Y P hist k) (hck : ChooseCk hist ck before) :
    TarOK all Ck T clean Y P (before ++ savedCks (tarRun X T pr K V ck k u).2.2.log) (tarRun X T pr K V ck k u).2.2.sink ∧
    (∀ res, (tarRun X T pr K V ck k u).1 = .ok res → THolds all P.shown (P.node (tarRun X T pr K V ck k u).2.2.sink) all.length 0 ∧ res = tarFiles P all) ∧
    ((tarRun X T pr K V ck k u).1 = .error .stop → NoTarData (tarRun X T pr K V ck k u).2.2.ck) := by
  obtain ⟨a, b, c⟩ := tarRun_pathX (V := V) hT hall P hfit (.nothing all P) X pr hist before ck k u hok hck
  exact ⟨a, fun res h => ⟨(b res h).1, (b res h).2.2⟩, c⟩

end
end Savior
