import Verif.CheckPath
import Verif.ZipPath
import Verif.ZipExtra
import Verif.Spec.Checker
import Verif.Spec.Failures
/-!
# Zip extraction into the checking sink
-/

namespace Savior

/-- Nothing but the record of `p` is touched, and its bounds are not. -/
def CTouch (p : Str) (s s' : CSt) : Prop :=
  s'.items = s.items ∧ ∀ q, s'.done q = s.done q ∨
    (q = p ∧ ∃ d', s'.done q = some d' ∧ d'.minW = ((s.done q).getD .fresh).minW ∧ d'.maxW = ((s.done q).getD .fresh).maxW)

theorem CTouch.refl (p : Str) (s : CSt) : CTouch p s s := ⟨rfl, fun _ => .inl rfl⟩

theorem CTouch.set (p : Str) (s : CSt) (d : CDone) (h1 : d.minW = ((s.done p).getD .fresh).minW) (h2 : d.maxW = ((s.done p).getD .fresh).maxW) :
    CTouch p s (s.setDone p d) := by
  refine ⟨rfl, fun q => ?_⟩
  by_cases hq : q = p
  · subst hq
    exact .inr ⟨rfl, d, by simp [CSt.setDone], h1, h2⟩
  · exact .inl (by simp [CSt.setDone, hq])

theorem CTouch.wr {p : Str} {s s' : CSt} (h : CTouch p s s') (ws : List CWriter) : CTouch p s { s' with wr := ws } := h

theorem cWith_touch (e : Entry) (kind : Kind) (s : CSt) (f : CItem → CDone → CSt → Option Err × CSt)
    (hf : ∀ it, CTouch e.path s (f it ((s.done e.path).getD .fresh) (s.setDone e.path ((s.done e.path).getD .fresh))).2) : CTouch e.path s (cWith e kind s f).2 := by
  unfold cWith
  split
  · exact .refl _ _
  · split
    · exact .refl _ _
    · exact hf _

theorem cMkdir_touch (e : Entry) (s : CSt) : CTouch e.path s (cMkdir e s).2 := cWith_touch e .dir s _ fun _ => .set _ _ _ rfl rfl

theorem cPrealloc_touch (e : Entry) (s : CSt) : CTouch e.path s (cPrealloc e s).2 := cWith_touch e .file s _ fun _ => .set _ _ _ rfl rfl

theorem cSymlink_touch (e : Entry) (t : Str) (s : CSt) : CTouch e.path s (cSymlink e t s).2 := by
  refine cWith_touch e .symlink s _ fun it => ?_
  split
  · exact .set _ _ _ rfl rfl
  · refine ⟨rfl, fun q => ?_⟩
    by_cases hq : q = e.path
    · subst hq; exact .inr ⟨rfl, _, if_pos rfl, rfl, rfl⟩
    · exact .inl (by simp [CSt.setDone, hq])

theorem cOpen_touch (e : Entry) (s : CSt) : CTouch e.path s (cOpen e s).2 := by
  refine cWith_touch e .file s _ fun it => ?_
  split
  · split
    · exact .set _ _ _ rfl rfl
    · exact .wr (.set _ _ _ rfl rfl) _
  · exact .wr (.set _ _ _ rfl rfl) _

/-- Records only grow. -/
def CLe (s s' : CSt) : Prop := ∀ p d, s.done p = some d → ∃ d', s'.done p = some d' ∧ d'.minW ≤ d.minW ∧ d.maxW ≤ d'.maxW

theorem CLe.refl (s : CSt) : CLe s s := fun _ d h => ⟨d, h, Int.le_refl _, Int.le_refl _⟩

theorem CTouch.le {p : Str} {s s' : CSt} (h : CTouch p s s') : CLe s s' := by
  intro q d hd
  rcases h.2 q with h1 | ⟨_, d', h1, h2, h3⟩
  · exact ⟨d, by rw [h1]; exact hd, Int.le_refl _, Int.le_refl _⟩
  · rw [hd] at h2 h3
    exact ⟨d', h1, by simp at h2; omega, by simp at h3; omega⟩

/-- The file was written from its beginning, and up to `o` at least. -/
def CReach (s : CSt) (p : Str) (o : Nat) : Prop := o = 0 ∨ ∃ d, s.done p = some d ∧ d.minW ≤ 0 ∧ (o : Int) ≤ d.maxW

theorem CReach.le {s s' : CSt} {p : Str} {o : Nat} (h : CReach s p o) (hle : CLe s s') : CReach s' p o := by
  rcases h with h | ⟨d, h1, h2, h3⟩
  · exact .inl h
  · obtain ⟨d', g1, g2, g3⟩ := hle p d h1
    exact .inr ⟨d', g1, by omega, by omega⟩

/-- The records are within the references; `M p x` says that `p` may be written up to `x`. -/
structure CRecs (M : Str → Int → Prop) (items : List CItem) (s : CSt) : Prop where
  items : s.items = items
  low : ∀ p d, s.done p = some d → 0 ≤ d.minW ∧ ∀ it, s.item p = some it → d.maxW ≤ it.data.length
  mem : ∀ p d, s.done p = some d → M p d.maxW

theorem CRecs.touch {M : Str → Int → Prop} {items : List CItem} {s s' : CSt} {p : Str} (h : CRecs M items s) (ht : CTouch p s s') (hM : M p 0) : CRecs M items s' := by
  refine ⟨ht.1.trans h.items, fun q d hd => ?_, fun q d hd => ?_⟩
  · unfold CSt.item
    rw [ht.1]
    rcases ht.2 q with h1 | ⟨rfl, d', h1, h2, h3⟩
    · exact h.low q d (by rw [← h1]; exact hd)
    · rw [hd] at h1
      obtain rfl := Option.some.inj h1
      cases hs : s.done q with
      | none =>
        rw [hs] at h2 h3
        simp [CDone.fresh] at h2 h3
        exact ⟨by omega, fun _ _ => by omega⟩
      | some d0 =>
        rw [hs] at h2 h3
        simp at h2 h3
        rw [h2, h3]
        exact h.low q d0 hs
  · rcases ht.2 q with h1 | ⟨rfl, d', h1, h2, h3⟩
    · exact h.mem q d (by rw [← h1]; exact hd)
    · rw [hd] at h1
      obtain rfl := Option.some.inj h1
      cases hs : s.done q with
      | none =>
        rw [hs] at h3
        simp [CDone.fresh] at h3
        rw [h3]; exact hM
      | some d0 =>
        rw [hs] at h3
        simp at h3
        rw [h3]
        exact h.mem q d0 hs

/-- The same, about members of a zip archive. -/
abbrev CSane (A : Archive) (D : Decomp) (items : List CItem) (s : CSt) : Prop :=
  CRecs (fun p x => ∃ z ∈ A.files, z.name = p ∧ ((zipFileEntry z).kind = .file → z.resumable → x ≤ (zipContent A D z).1.length)) items s

theorem CSane.touch {A : Archive} {D : Decomp} {items : List CItem} {s s' : CSt} {p : Str} (h : CSane A D items s) (ht : CTouch p s s')
    {z : ZFile} (hz : z ∈ A.files) (hn : z.name = p) : CSane A D items s' := CRecs.touch h ht ⟨z, hz, hn, fun _ _ => by omega⟩

/-- What a write on the current writer does to the records. -/
theorem cWrite_rec (bs : List Byte) (s : CSt) (ws : List CWriter) (w : CWriter) (h : s.wr = ws ++ [w]) :
    (cWrite (s.wr.length - 1) bs s).1 = cCheck w.item.data w.off bs ∧
    ∃ d, (cWrite (s.wr.length - 1) bs s).2.done w.item.path = some d ∧
      d.minW = min (w.off : Int) ((s.done w.item.path).getD .fresh).minW ∧
      d.maxW = (if (cCheck w.item.data w.off bs).2 = none then max ((w.off + (cCheck w.item.data w.off bs).1 : Nat) : Int) ((s.done w.item.path).getD .fresh).maxW
        else ((s.done w.item.path).getD .fresh).maxW) := by
  have hk : s.wr[s.wr.length - 1]? = some w := by rw [h]; simp
  unfold cWrite
  rw [hk]
  refine ⟨rfl, _, if_pos rfl, ?_, ?_⟩
  · generalize (s.done w.item.path).getD .fresh = d0
    split <;> split <;> (try simp only) <;> omega
  · generalize (s.done w.item.path).getD .fresh = d0
    have hm : (if (w.off : Int) < d0.minW then { d0 with minW := (w.off : Int) } else d0).maxW = d0.maxW := by split <;> rfl
    by_cases h1 : (cCheck w.item.data w.off bs).2 = none
    · rw [if_pos h1]
      by_cases h2 : ((w.off + (cCheck w.item.data w.off bs).1 : Nat) : Int) > d0.maxW
      · rw [if_pos ⟨h1, by rw [hm]; exact h2⟩]
        simp only
        omega
      · rw [if_neg (by rw [hm]; exact fun h => h2 h.2), hm]
        omega
    · rw [if_neg h1, if_neg (fun h => h1 h.1), hm]

section
variable {A : Archive} {D : Decomp} {items : List CItem}

/-- A write at offset `o` of a member. -/
theorem CRecs.write {M : Str → Int → Prop} {s : CSt} {p : Str} {o : Nat} {bs : List Byte} (h : CRecs M items s) (hinv : checkInv s)
    (hat : ∃ w, s.wr.getLast? = some w ∧ w.item.path = p ∧ w.off = o)
    (hM : ∀ x : Int, x ≤ (o + bs.length : Nat) → M p x) :
    CRecs M items (checkSink.write bs s).2 ∧ CLe s (checkSink.write bs s).2 ∧
    ((checkSink.write bs s).1.2.2 = none → CReach s p o → CReach (checkSink.write bs s).2 p (o + bs.length)) := by
  obtain ⟨w, hl, hp, ho⟩ := hat
  obtain ⟨ws, hws⟩ := list_snoc_of_getLast? hl
  obtain ⟨r1, r2, r3, r4⟩ := cWrite_last bs s ws w hws
  obtain ⟨_, d, q1, q2, q3⟩ := cWrite_rec bs s ws w hws
  obtain ⟨c1, c2, c3, c4⟩ := cCheck_spec w.item.data w.off bs
  have hw := hinv w (by rw [hws]; simp)
  have hle : w.off + (cCheck w.item.data w.off bs).1 ≤ w.item.data.length := by
    rcases Nat.eq_zero_or_pos (cCheck w.item.data w.off bs).1 with hz | hz
    · rw [hz]; exact hw.2.2
    · obtain ⟨b, _, b2⟩ := c2 ((cCheck w.item.data w.off bs).1 - 1) (by omega)
      have := (List.getElem?_eq_some_iff.1 b2).1
      omega
  have hfresh : s.done w.item.path = none → ((s.done w.item.path).getD .fresh).minW = 9223372036854775807 ∧ ((s.done w.item.path).getD .fresh).maxW = 0 := by
    intro h; rw [h]; exact ⟨rfl, rfl⟩
  have hsome : ∀ d0, s.done w.item.path = some d0 → ((s.done w.item.path).getD .fresh) = d0 := by intro d0 h; rw [h]; rfl
  show CRecs M items (cWrite (s.wr.length - 1) bs s).2 ∧ CLe s (cWrite (s.wr.length - 1) bs s).2 ∧
    ((cWrite (s.wr.length - 1) bs s).1.2 = none → CReach s p o → CReach (cWrite (s.wr.length - 1) bs s).2 p (o + bs.length))
  refine ⟨⟨r2.trans h.items, fun q d' hd' => ?_, fun q d' hd' => ?_⟩, fun q d' hd' => ?_, fun hok hr => ?_⟩
  · unfold CSt.item
    rw [r2]
    by_cases hpp : q = w.item.path
    · subst hpp
      obtain rfl : d = d' := Option.some.inj (q1.symm.trans hd')
      have hit : ∀ it, s.items.find? (·.path = w.item.path) = some it → it = w.item := fun it hit => Option.some.inj (hit.symm.trans hw.1)
      cases hs : s.done w.item.path with
      | none =>
        obtain ⟨f1, f2⟩ := hfresh hs
        rw [f1] at q2; rw [f2] at q3
        refine ⟨by omega, fun it hi => ?_⟩
        rw [hit it hi]
        split at q3 <;> omega
      | some d0 =>
        rw [hsome d0 hs] at q2 q3
        obtain ⟨g1, g2⟩ := h.low _ d0 hs
        refine ⟨by omega, fun it hi => ?_⟩
        have := g2 it hi
        rw [hit it hi] at this ⊢
        split at q3 <;> omega
    · rw [r3 q hpp] at hd'
      exact h.low q d' hd'
  · by_cases hpp : q = w.item.path
    · subst hpp
      obtain rfl : d = d' := Option.some.inj (q1.symm.trans hd')
      by_cases hmax : d.maxW = (w.off + (cCheck w.item.data w.off bs).1 : Nat) ∨ s.done w.item.path = none
      · rw [hp]
        refine hM _ ?_
        rcases hmax with hmax | hs
        · omega
        · rw [(hfresh hs).2] at q3
          split at q3 <;> omega
      · have h1 : d.maxW ≠ ((w.off + (cCheck w.item.data w.off bs).1 : Nat) : Int) := fun h => hmax (.inl h)
        cases hs : s.done w.item.path with
        | none => exact absurd (.inr hs) hmax
        | some d0 =>
          rw [hsome d0 hs] at q3
          have : d.maxW = d0.maxW := by split at q3 <;> omega
          rw [this]
          exact h.mem _ d0 hs
    · rw [r3 q hpp] at hd'
      exact h.mem q d' hd'
  · by_cases hpp : q = w.item.path
    · subst hpp
      rw [hsome d' hd'] at q2 q3
      exact ⟨d, q1, by omega, by split at q3 <;> omega⟩
    · exact ⟨d', by rw [r3 q hpp]; exact hd', Int.le_refl _, Int.le_refl _⟩
  · rw [r1] at hok
    rw [if_pos hok, c3.1 hok] at q3
    rw [← hp]
    rcases hr with hr | ⟨d0, g1, g2, g3⟩
    · exact .inr ⟨d, q1, by omega, by omega⟩
    · rw [← hp] at g1
      rw [hsome d0 g1] at q2 q3
      exact .inr ⟨d, q1, by omega, by omega⟩

theorem CSane.write {s : CSt} {zf : ZFile} {o : Nat} {bs : List Byte} (h : CSane A D items s) (hinv : checkInv s) (hzf : zf ∈ A.files)
    (hat : ∃ w, s.wr.getLast? = some w ∧ w.item.path = zf.name ∧ w.off = o)
    (hlen : (zipFileEntry zf).kind = .file → zf.resumable → o + bs.length ≤ (zipContent A D zf).1.length) :
    CSane A D items (checkSink.write bs s).2 ∧ CLe s (checkSink.write bs s).2 ∧
    ((checkSink.write bs s).1.2.2 = none → CReach s zf.name o → CReach (checkSink.write bs s).2 zf.name (o + bs.length)) :=
  CRecs.write h hinv hat fun x hx => ⟨zf, hzf, rfl, fun h1 h2 => by have := hlen h1 h2; omega⟩

/-- Every file before member `i` was written completely, and member `i` up to `o`. -/
def CLowAt (A : Archive) (D : Decomp) (i o : Nat) (s : CSt) : Prop :=
  (∀ h z, h < i → A.files[h]? = some z → (zipFileEntry z).kind = .file → CReach s z.name (zipContent A D z).1.length) ∧
  ∀ z, A.files[i]? = some z → CReach s z.name o

theorem CLowAt.le {i o : Nat} {s s' : CSt} (h : CLowAt A D i o s) (hle : CLe s s') : CLowAt A D i o s' :=
  ⟨fun h' z h1 h2 h3 => (h.1 h' z h1 h2 h3).le hle, fun z hz => (h.2 z hz).le hle⟩

theorem CLowAt.next {i o : Nat} {s : CSt} {zf : ZFile} (h : CLowAt A D i o s) (hzf : A.files[i]? = some zf)
    (hn : (zipFileEntry zf).kind = .file → CReach s zf.name (zipContent A D zf).1.length) : CLowAt A D (i + 1) 0 s := by
  refine ⟨fun h' z h1 h2 h3 => ?_, fun _ _ => .inl rfl⟩
  by_cases he : h' = i
  · subst he
    obtain rfl : zf = z := Option.some.inj (hzf.symm.trans h2)
    exact hn h3
  · exact h.1 h' z (by omega) h2 h3

theorem CLowAt.zero {i o : Nat} {s : CSt} (h : CLowAt A D i o s) : CLowAt A D i 0 s := ⟨h.1, fun _ _ => .inl rfl⟩

/-- The same of every checkpoint. -/
def CksLow (A : Archive) (D : Decomp) (cks : List ECkpt) (s : CSt) : Prop :=
  ∀ c ∈ cks, ∀ i o, PathCk A D (fun _ => true) c i o → CLowAt A D i o s

theorem CksLow.le {cks : List ECkpt} {s s' : CSt} (h : CksLow A D cks s) (hle : CLe s s') : CksLow A D cks s' :=
  fun c hc i o hp => (h c hc i o hp).le hle

variable {V : SaveCons}

/-- Known throughout a run. -/
abbrev CRunOK (A : Archive) (D : Decomp) (items : List CItem) (before : List ECkpt) (w : XW checkSink V) : Prop :=
  CSane A D items w.sink ∧ CksLow A D (before ++ savedCks w.log) w.sink

theorem CRunOK.touch {before : List ECkpt} {w w' : XW checkSink V} {p : Str} {ev : Ev} (h : CRunOK A D items before w) (ht : CTouch p w.sink w'.sink)
    {z : ZFile} (hz : z ∈ A.files) (hn : z.name = p) (hlog : w'.log = w.log ++ [ev]) (hev : ∀ ck a, ev ≠ .save ck a) : CRunOK A D items before w' := by
  refine ⟨h.1.touch ht hz hn, ?_⟩
  rw [hlog, savedCks_say _ _ hev]
  exact h.2.le ht.le

/-- The facts kept by each step. -/
def checkExtra (items : List CItem) (env : ZEnv) (hh : env.Honest A) (total : Int) (hfit : (checkPath items).FitsAll A) (V : SaveCons) (before : List ECkpt) :
    ZipExtra (pathSteps 0 A D env hh total checkSink (checkPath items) hfit V before) where
  Beg i w := CRunOK A D items before w ∧ CLowAt A D i 0 w.sink ∧ ∀ zf o, PathSaved A D (checkPath items).shown w.ck i zf o → CReach w.sink zf.name o
  Mid i _ o w := CRunOK A D items before w ∧ CLowAt A D i o w.sink
  Cop i xs w := CRunOK A D items before w ∧ CLowAt A D i xs.length w.sink
  Bad w := CRunOK A D items before w
  beg_bad i w _ h := h.1
  enter_bad i zf w _ h _ := h.1
  zero_bad i zf w _ h _ _ _ _ := h.1
  mkdir := by
    rintro i zf w hq h hzf _ hk w' rfl
    obtain ⟨o, h1, _⟩ := pathBeg_entry hq hzf
    have hpath : (w.ck.entry.getD (zipFileEntry zf)).path = zf.name := by rw [h1]; rfl
    have ht := cMkdir_touch (w.ck.entry.getD (zipFileEntry zf)) w.sink
    have key := fun x => h.1.touch (w' := ({ zipEnter i zf w with sink := (checkSink.mkdir (w.ck.entry.getD (zipFileEntry zf)) w.sink).2 }).say
      (.mkdir (w.ck.entry.getD (zipFileEntry zf)) x)) ht (List.mem_of_getElem? hzf) hpath.symm rfl (by simp)
    refine ⟨fun _ => ⟨key _, (h.2.1.le ht.le).next hzf (fun h => by rw [hk] at h; cases h), fun zf' o hp => absurd hp.entry (by simp [zipNext])⟩, fun _ => key _⟩
  symlink := by
    rintro i zf w chunks hq h hzf _ hk _ w' rfl
    obtain ⟨o, h1, _⟩ := pathBeg_entry hq hzf
    have hpath : (w.ck.entry.getD (zipFileEntry zf)).path = zf.name := by rw [h1]; rfl
    have ht := cSymlink_touch (w.ck.entry.getD (zipFileEntry zf)) chunks.flatten w.sink
    have key := fun x => h.1.touch (w' := ({ zipEnter i zf w with sink := (checkSink.symlink (w.ck.entry.getD (zipFileEntry zf)) chunks.flatten w.sink).2 }).say
      (.symlink (w.ck.entry.getD (zipFileEntry zf)) chunks.flatten x)) ht (List.mem_of_getElem? hzf) hpath.symm rfl (by simp)
    refine ⟨fun _ => ⟨key _, (h.2.1.le ht.le).next hzf (fun h => by rw [hk] at h; cases h), fun zf' o hp => absurd hp.entry (by simp [zipNext])⟩, fun _ => key _⟩
  open_ := by
    intro i zf w o0 oc hq h hzf _ hk hrs hsa hoc
    obtain ⟨o, h1, h2, h3, h4, h5⟩ := pathBeg_entry hq hzf
    have hpath : (w.ck.entry.getD (zipFileEntry zf)).path = zf.name := by rw [h1]; rfl
    have ht := cOpen_touch (w.ck.entry.getD (zipFileEntry zf)) w.sink
    have key : CRunOK A D items before (zipOpen (zipEnter i zf w)).2 := h.1.touch (w' := (zipOpen (zipEnter i zf w)).2) ht (List.mem_of_getElem? hzf) hpath.symm rfl (by simp)
    have ho : o0 = o := startsAt_unique hsa h4
    have hoc' : oc = o0 := (hoc o0 (by rw [h1, ho]; rfl)).2.1 rfl
    refine ⟨fun _ _ _ _ => ⟨key, (h.2.1.le ht.le).1, fun z hz => ?_⟩, fun _ => key⟩
    obtain rfl : zf = z := Option.some.inj (hzf.symm.trans hz)
    rcases Nat.eq_zero_or_pos oc with h0 | h0
    · exact .inl h0
    · obtain ⟨o', _, _, g3, _⟩ := hq
      rcases g3 with ⟨rfl, _, g4⟩ | ⟨zf', g⟩
      · rcases h4 with ⟨_, h4⟩ | ⟨c, h4, _⟩
        · omega
        · rw [g4] at h4; cases h4
      · obtain rfl : zf = zf' := Option.some.inj (hzf.symm.trans g.saved.file)
        have he := startsAt_unique h4 (Or.inr g.saved.src)
        have := h.2.2 zf o' g
        rw [hoc', ho, he]
        exact this.le ht.le
  save := by
    rintro i zf w o0 o c ⟨zf', q1, q2, q3, q4, q5, q6, q7⟩ h hzf ho _ hc hst0 hse0 _ hq'
    obtain rfl : zf = zf' := Option.some.inj (hzf.symm.trans q1)
    have hsink : (zipOnSave total c w).1.sink = w.sink := by
      unfold zipOnSave
      simp only
      split
      · rfl
      · split <;> rfl
    show CRunOK A D items before (zipOnSave total c w).1 ∧ CLowAt A D i o (zipOnSave total c w).1.sink
    unfold CRunOK
    rw [hsink]
    refine ⟨⟨h.1.1, ?_⟩, h.2⟩
    rcases zipOnSave_log total c w with ⟨y, e1, _⟩ | ⟨a, e1, _⟩
    · rw [e1, savedCks_say _ _ (by simp)]
      exact h.1.2
    · rw [e1, savedCks_save, savedCks_say _ _ (by simp)]
      have hps : PathSaved A D (checkPath items).shown (savedOf total c w) i zf o := ⟨⟨hzf, q5, ⟨_, q6⟩, c, rfl, hc⟩, q2, q6, ho⟩
      intro x hx i' o' hp
      rw [← List.append_assoc] at hx
      rcases List.mem_append.1 hx with hx | hx
      · exact h.1.2 x hx i' o' hp
      · rw [List.mem_singleton] at hx; subst hx
        obtain ⟨rfl, rfl⟩ := pathCk_unique (Or.inl ⟨zf, hps⟩) hp
        exact h.2
  write := by
    rintro i zf w o0 o bs ⟨zf', q1, q2, q3, q4, q5, q6, q7⟩ h hzf hbs hol
    obtain rfl : zf = zf' := Option.some.inj (hzf.symm.trans q1)
    obtain ⟨c, _, _, hat, _⟩ := q3.node rfl
    obtain ⟨k1, k2, k3⟩ := h.1.1.write (bs := bs) q3.inv.2 (List.mem_of_getElem? hzf) hat (fun _ _ => hol)
    have key : CRunOK A D items before (w.write bs).2 := ⟨k1, by
      show CksLow A D (before ++ savedCks (w.log ++ [_])) _
      rw [savedCks_say _ _ (by simp)]
      exact h.1.2.le k2⟩
    refine ⟨fun hok _ => ⟨key, (h.2.le k2).1, fun z hz => ?_⟩, fun _ => key⟩
    obtain rfl : zf = z := Option.some.inj (hzf.symm.trans hz)
    exact k3 hok (h.2.2 zf hzf)
  should i w o0 o n _ h := h
  emit i w o0 o _ h := ⟨⟨h.1.1, by
    show CksLow A D (before ++ savedCks (w.log ++ [_])) _
    rw [savedCks_say _ _ (by simp)]
    exact h.1.2⟩, h.2⟩
  mid_bad i w o0 o _ h := h.1
  mid_stop i zf w o0 o _ h _ _ := h.1
  mid_end := by
    rintro i zf w o0 hq h hzf _ _
    exact ⟨h.1, h.2.next hzf (fun _ => h.2.2 zf hzf), fun zf' o hp => absurd hp.entry (by simp [zipNext])⟩
  copy := by
    intro i zf w hq h hzf _ hk hrs
    obtain ⟨o, h1, h2, h3, h4, h5⟩ := pathBeg_entry hq hzf
    have ht := cOpen_touch { w.ck.entry.getD (zipFileEntry zf) with woff := 0 } w.sink
    have hpath : ({ w.ck.entry.getD (zipFileEntry zf) with woff := 0 } : Entry).path = zf.name := by rw [h1]; rfl
    have key : CRunOK A D items before (zipOpen (zipZero (zipEnter i zf w))).2 :=
      h.1.touch (w' := (zipOpen (zipZero (zipEnter i zf w))).2) ht (List.mem_of_getElem? hzf) hpath.symm rfl (by simp)
    exact ⟨fun _ _ => ⟨key, h.2.1.le ht.le⟩, fun _ => key⟩
  copy_write := by
    rintro i w xs bs ⟨zf, hzf, q1, q2, q3, q4, q5, q6, q7, q8⟩ h hbs
    obtain ⟨k1, k2, k3⟩ := h.1.1.write (bs := bs) q7.2 (List.mem_of_getElem? hzf) (q5 rfl).2 (fun _ hr => absurd hr q2)
    have key : CRunOK A D items before (w.write bs).2 := ⟨k1, by
      show CksLow A D (before ++ savedCks (w.log ++ [_])) _
      rw [savedCks_say _ _ (by simp)]
      exact h.1.2.le k2⟩
    refine ⟨fun hok _ _ => ⟨key, (h.2.le k2).1, fun z hz => ?_⟩, key⟩
    obtain rfl : zf = z := Option.some.inj (hzf.symm.trans hz)
    rw [List.length_append]
    exact k3 hok (h.2.2 zf hzf)
  copy_bad i w xs _ h := h.1
  copy_end := by
    rintro i zf w chunks ⟨zf', hzf', q1, q2, q3⟩ h hzf hop
    obtain rfl : zf = zf' := Option.some.inj (hzf.symm.trans hzf')
    refine ⟨h.1, h.2.next hzf (fun _ => ?_), fun zf' o hp => absurd hp.entry (by simp [zipNext])⟩
    have : (zipContent A D zf).1 = chunks.flatten := by
      rw [hh i zf hzf chunks hop]
      unfold zipContent
      unfold ZFile.resumable at q2
      cases hm : zf.method <;> simp [hm] at q2 ⊢
    rw [this]
    exact h.2.2 zf hzf

theorem zipPrealloc_sane : ∀ (fs : List ZFile) (w : XW checkSink V), (∀ z ∈ fs, z ∈ A.files) → CSane A D items w.sink → CSane A D items (zipPrealloc fs w).2.sink := by
  intro fs
  induction fs with
  | nil => intro w _ h; exact h
  | cons z fs ih =>
    intro w hz h
    unfold zipPrealloc
    have hz' : ∀ y ∈ fs, y ∈ A.files := fun y hy => hz y (List.mem_cons_of_mem _ hy)
    split
    · have ht := h.touch (cPrealloc_touch (zipFileEntry z) w.sink) (hz z (List.mem_cons_self ..)) rfl
      simp only
      split
      · exact ht
      · exact ih _ hz' ht
    · exact ih _ hz' h

/-- What a history of runs into the checking sink leaves. -/
def CheckOK (A : Archive) (D : Decomp) (items : List CItem) (hist : List ECkpt) (s : CSt) : Prop :=
  PathOK A D (checkPath items) hist s ∧ CSane A D items s ∧ CksLow A D hist s

/-- What one more run does. -/
theorem zipResume_check {F : Nat} (hwf : ZipWF A D F) (env : ZEnv) (hh : env.Honest A) (hfit : (checkPath items).FitsAll A) (hist before : List ECkpt) (ck : Option ECkpt)
    (k : CSt) (u : V.St) (hok : CheckOK A D items hist k) (hck : ChooseCk hist ck before) :
    PathEnd 0 A D (checkPath items) before (zipResume A env D F checkSink V ck k u).2 ∧ CRunOK A D items before (zipResume A env D F checkSink V ck k u).2 ∧
    (∀ res, (zipResume A env D F checkSink V ck k u).1 = .ok res →
      HoldsFrom 0 A D (checkPath items).shown ((checkPath items).node (zipResume A env D F checkSink V ck k u).2.sink) A.files.length 0 ∧
      ∀ z ∈ A.files, (zipFileEntry z).kind = .file → CReach (zipResume A env D F checkSink V ck k u).2.sink z.name (zipContent A D z).1.length) ∧
    ((zipResume A env D F checkSink V ck k u).1 = .error .stop → (zipResume A env D F checkSink V ck k u).2.stopErr = true) := by
  obtain ⟨⟨hinv, i0, o0, hup, hhold⟩, hsane, hlow⟩ := hok
  have hst : PathStart 0 A D (checkPath items) k ck before := by
    cases ck with
    | none => cases hck; exact .fresh
    | some c =>
      obtain ⟨i, o, hp, hle, hub⟩ := hup.choose hck
      exact .pick hp hub (hhold.mono (pathCk_le hp) hle (Nat.zero_le _))
  have hsub : ∀ c ∈ before, c ∈ hist := by
    intro x hx
    cases hck with
    | fresh => cases hx
    | pick he => subst he; simp at hx ⊢; rcases hx with hx | hx <;> simp [hx]
  have key := zipResume_steps hwf (checkExtra items env hh (zipSum A.files) hfit V before).steps ck k u ?_
  · refine ⟨key.1.1, key.1.2, ?_, key.2.2⟩
    intro res hres
    obtain ⟨_, _, j, hj, ⟨o, hb, _⟩, _, hl, _⟩ := key.2.1 res hres
    refine ⟨⟨fun h z hl hlt hz hs hu => hb.done h z hl (by omega) hz hs hu, fun _ _ _ _ h => absurd h (Nat.lt_irrefl 0)⟩, fun z hz hk => ?_⟩
    obtain ⟨h, hz⟩ := List.getElem?_of_mem hz
    have := (List.getElem?_eq_some_iff.1 hz).1
    exact hl.1 h z (by omega) hz hk
  · intro r hr
    obtain ⟨b1, b2, b3⟩ := pathStart_steps hh (checkPath items) hfit before ck k u hinv hst r hr
    obtain ⟨p1, p2, _⟩ := zipPrepare_log A ck k u r hr
    have hsv : savedCks r.2.log = [] := by unfold savedCks; rw [saves_prealloc _ p1]; rfl
    have hp : CRunOK A D items before r.2 := by
      unfold CRunOK
      rw [hsv, List.append_nil]
      cases ck with
      | some c =>
        have h1 : r.2.sink = k := by subst hr; rfl
        rw [h1]
        exact ⟨hsane, fun c hc => hlow c (hsub c hc)⟩
      | none =>
        cases hck
        have hr' : zipPrealloc A.files (zipInit A none k u : XW checkSink V) = r := hr
        rw [← hr']
        exact ⟨zipPrealloc_sane A.files _ (fun _ h => h) hsane, fun _ h => (by cases h)⟩
    refine ⟨⟨b1, hp⟩, fun hn => ?_, b3⟩
    obtain ⟨j, hj, hb⟩ := b2 hn
    refine ⟨j, hj, hb, hp, ?_⟩
    cases ck with
    | none =>
      have : j = 0 := by
        have : (0 : Int) = j := hj
        omega
      subst this
      exact ⟨⟨fun _ _ h => absurd h (Nat.not_lt_zero _), fun _ _ => .inl rfl⟩, fun zf o hps => by rw [p2] at hps; exact absurd hps.entry (by simp [freshCk])⟩
    | some c =>
      have h1 : r.2.sink = k := by subst hr; rfl
      have hc : c ∈ hist := hsub c (by cases hck with | pick he => simp)
      obtain ⟨i, o, hp, _⟩ := hup.choose hck
      have hidx : c.entryIndex = i := by
        rcases hp with ⟨zf, hp⟩ | ⟨hp, _⟩
        · exact hp.saved.index
        · exact hp
      have : j = i := by
        have : c.entryIndex = j := hj
        omega
      subst this
      rw [h1]
      refine ⟨(hlow c hc _ _ hp).zero, fun zf o' hps => ?_⟩
      rw [p2] at hps
      exact (hlow c hc _ _ (Or.inl ⟨zf, hps⟩)).2 zf hps.saved.file

theorem pathCk_index {ck : ECkpt} {i o : Nat} {sh : Str → Bool} (h : PathCk A D sh ck i o) : ck.entryIndex = i := by
  rcases h with ⟨zf, h⟩ | ⟨h, _⟩
  · exact h.saved.index
  · exact h

theorem lastSave_mem {log : List Ev} {c : ECkpt} (h : lastSave log = some c) : c ∈ savedCks log := by
  unfold lastSave at h
  unfold savedCks
  rw [← List.getLast?_map] at h
  exact List.mem_of_getLast? h

/-- What any history of runs leaves. -/
theorem zipAttempts_check {F : Nat} (hwf : ZipWF A D F) (hfit : (checkPath items).FitsAll A) {k0 : checkSink.St} (hk0 : CheckOK A D items [] k0) {hist : List ECkpt} {k : checkSink.St}
    (h : ZipAttempts A D F checkSink k0 hist k) : CheckOK A D items hist k := by
  have next : ∀ {k k' : checkSink.St}, checkSink.Next k k' → k' = k := by
    rintro k k' (h | h) <;> exact h
  induction h with
  | refl => exact hk0
  | @step hist ck before k1 k2 env V u hh _ hc hn ih =>
    obtain ⟨g1, g2, _⟩ := zipResume_check hwf env hh hfit _ _ _ _ u ih hc
    rw [next hn]
    exact ⟨⟨g1.1, g1.2.1⟩, g2⟩
  | @kept hist ck before k1 k2 env V u hh _ hc hs hn ih =>
    obtain ⟨g1, g2, _, g3⟩ := zipResume_check hwf env hh hfit _ _ _ _ u ih hc
    have he := zipResume_stop_ck A env D F _ _ u hs (g3 hs)
    obtain ⟨h1, ⟨c, hl, hci⟩, i, h2, h3⟩ := g1.2.2 (g3 hs) he
    rw [next hn]
    refine ⟨⟨g1.1, i, 0, UpTo.snoc (UpTo.nil ..) (Or.inr ⟨h2, he, h1, rfl⟩), h3⟩, g2.1, ?_⟩
    intro x hx i' o' hp
    rw [List.mem_singleton] at hx; subst hx
    obtain ⟨rfl, rfl⟩ := pathCk_unique (Or.inr ⟨h2, he, h1, rfl⟩) hp
    obtain ⟨_, _, hcur, _⟩ := g1.2.1
    have hmem : c ∈ before ++ savedCks (zipResume A env D F checkSink V ck k1 u).2.log := List.mem_append_right _ (lastSave_mem hl)
    obtain ⟨i2, o2, hp2, _⟩ := hcur.each c hmem
    have hii : i2 = i' := by
      have := pathCk_index hp2
      omega
    subst hii
    exact (g2.2 c hmem _ _ hp2).zero


/-! ## No false alarms -/

/-- The items say of every member what the archive says. -/
def Matches (A : Archive) (D : Decomp) (items : List CItem) : Prop :=
  ∀ z ∈ A.files, ∃ it, items.find? (·.path = z.name) = some it ∧ it.node = zipNodeOf A D z

theorem Matches.dir (h : Matches A D items) {z : ZFile} (hz : z ∈ A.files) (hk : (zipFileEntry z).kind = .dir) :
    ∃ it, items.find? (·.path = z.name) = some it ∧ it.kind = .dir := by
  obtain ⟨it, h1, h2⟩ := h z hz
  refine ⟨it, h1, ?_⟩
  unfold CItem.node zipNodeOf at h2
  rw [hk] at h2
  cases hi : it.kind <;> rw [hi] at h2 <;> first | rfl | cases h2

theorem Matches.symlink (h : Matches A D items) {z : ZFile} (hz : z ∈ A.files) (hk : (zipFileEntry z).kind = .symlink) :
    ∃ it, items.find? (·.path = z.name) = some it ∧ it.kind = .symlink ∧ it.link = z.opened.1 := by
  obtain ⟨it, h1, h2⟩ := h z hz
  unfold CItem.node zipNodeOf at h2
  rw [hk] at h2
  cases hi : it.kind <;> rw [hi] at h2 <;> simp at h2
  exact ⟨it, h1, hi, h2⟩

theorem Matches.file (h : Matches A D items) {z : ZFile} (hz : z ∈ A.files) (hk : (zipFileEntry z).kind = .file) :
    ∃ it, items.find? (·.path = z.name) = some it ∧ it.kind = .file ∧ it.data = (zipContent A D z).1 := by
  obtain ⟨it, h1, h2⟩ := h z hz
  unfold CItem.node zipNodeOf at h2
  rw [hk] at h2
  cases hi : it.kind <;> rw [hi] at h2 <;> simp at h2
  exact ⟨it, h1, hi, h2⟩

/-- Nothing failed so far. -/
abbrev CFine (items : List CItem) (w : XW checkSink V) : Prop := w.sink.items = items ∧ ∀ ev ∈ w.log, ev.sinkError = none

theorem CFine.say {w w' : XW checkSink V} {ev : Ev} (h : CFine items w) (hi : w'.sink.items = w.sink.items) (hl : w'.log = w.log ++ [ev]) (he : ev.sinkError = none) :
    CFine items w' := by
  refine ⟨hi.trans h.1, fun x hx => ?_⟩
  rw [hl] at hx
  rcases List.mem_append.1 hx with hx | hx
  · exact h.2 x hx
  · rw [List.mem_singleton.1 hx]; exact he

theorem cOpen_fine {s : CSt} {e : Entry} {it : CItem} (h : s.items.find? (·.path = e.path) = some it) (hk : it.kind = .file) (h0 : 0 ≤ e.woff) (h1 : e.woff ≤ it.data.length) :
    (cOpen e s).1 = none := by
  have h' : s.item e.path = some it := h
  unfold cOpen cWith
  rw [h']
  simp only [hk, ne_eq, not_true, if_false]
  by_cases hz : e.woff = 0
  · rw [if_neg (by simpa using hz)]
  · rw [if_pos hz]
    unfold cSeek
    have g1 : ¬ e.woff > it.data.length := by omega
    have g2 : ¬ e.woff < 0 := by omega
    simp only [if_neg g1, if_neg g2]

theorem cCheck_fine : ∀ (data : List Byte) (off : Nat) (bs : List Byte), bs = (data.drop off).take bs.length → off + bs.length ≤ data.length →
    cCheck data off bs = (bs.length, none) := by
  intro data off bs h _
  obtain ⟨c1, c2, c3, c4⟩ := cCheck_spec data off bs
  have : (cCheck data off bs).1 = bs.length := by
    apply Nat.le_antisymm c1
    apply Nat.le_of_not_lt
    intro hlt
    obtain ⟨b, g1, g2⟩ := c4 hlt
    apply g2
    have h3 := congrArg (fun l => l[(cCheck data off bs).1]?) h
    rw [List.getElem?_take_of_lt hlt, List.getElem?_drop] at h3
    rw [← h3, g1]
  have h2 := c3.2 this
  exact Prod.ext this h2

/-- The facts kept by each step when the items match and every file is stored or deflated. -/
def fineExtra (items : List CItem) (env : ZEnv) (hh : env.Honest A) (total : Int) (hfit : (checkPath items).FitsAll A) (V : SaveCons) (before : List ECkpt)
    (hm : Matches A D items) (hres : ∀ z ∈ A.files, (zipFileEntry z).kind = .file → z.resumable) :
    ZipExtra (pathSteps 0 A D env hh total checkSink (checkPath items) hfit V before) where
  Beg i w := CFine items w
  Mid i _ o w := CFine items w
  Cop i xs w := CFine items w
  Bad w := CFine items w
  beg_bad i w _ h := h
  enter_bad i zf w _ h _ := h
  zero_bad i zf w _ h _ _ _ _ := h
  mkdir := by
    rintro i zf w hq h hzf _ hk w' rfl
    obtain ⟨o, h1, _⟩ := pathBeg_entry hq hzf
    have hpath : (w.ck.entry.getD (zipFileEntry zf)).path = zf.name := by rw [h1]; rfl
    obtain ⟨it, g1, g2⟩ := hm.dir (List.mem_of_getElem? hzf) hk
    have hok : (cMkdir (w.ck.entry.getD (zipFileEntry zf)) w.sink).1 = none := by
      unfold cMkdir cWith CSt.item
      rw [h.1, hpath, g1]
      simp [g2]
    have key : CFine items (({ zipEnter i zf w with sink := (checkSink.mkdir (w.ck.entry.getD (zipFileEntry zf)) w.sink).2 }).say
      (.mkdir (w.ck.entry.getD (zipFileEntry zf)) (checkSink.mkdir (w.ck.entry.getD (zipFileEntry zf)) w.sink).1)) :=
      h.say (cMkdir_touch _ _).1 rfl hok
    exact ⟨fun _ => key, fun _ => key⟩
  symlink := by
    rintro i zf w chunks hq h hzf _ hk hop w' rfl
    obtain ⟨o, h1, _⟩ := pathBeg_entry hq hzf
    have hpath : (w.ck.entry.getD (zipFileEntry zf)).path = zf.name := by rw [h1]; rfl
    obtain ⟨it, g1, g2, g3⟩ := hm.symlink (List.mem_of_getElem? hzf) hk
    have hok : (cSymlink (w.ck.entry.getD (zipFileEntry zf)) chunks.flatten w.sink).1 = none := by
      unfold cSymlink cWith CSt.item
      rw [h.1, hpath, g1, hh i zf hzf chunks hop]
      simp [g2, g3]
    have key : CFine items (({ zipEnter i zf w with sink := (checkSink.symlink (w.ck.entry.getD (zipFileEntry zf)) chunks.flatten w.sink).2 }).say
      (.symlink (w.ck.entry.getD (zipFileEntry zf)) chunks.flatten (checkSink.symlink (w.ck.entry.getD (zipFileEntry zf)) chunks.flatten w.sink).1)) :=
      h.say (cSymlink_touch _ _ _).1 rfl hok
    exact ⟨fun _ => key, fun _ => key⟩
  open_ := by
    intro i zf w o0 oc hq h hzf _ hk hrs hsa hoc
    obtain ⟨o, h1, h2, h3, h4, h5⟩ := pathBeg_entry hq hzf
    have hpath : (w.ck.entry.getD (zipFileEntry zf)).path = zf.name := by rw [h1]; rfl
    obtain ⟨it, g1, g2, g3⟩ := hm.file (List.mem_of_getElem? hzf) hk
    have hlen : o ≤ (zipContent A D zf).1.length := by
      rcases h4 with ⟨_, h4⟩ | ⟨c, _, h4⟩
      · omega
      · exact fileCk_le h4
    have hwo : (w.ck.entry.getD (zipFileEntry zf)).woff = (o : Int) := by rw [h1]; rfl
    have hok : (cOpen (w.ck.entry.getD (zipFileEntry zf)) w.sink).1 = none :=
      cOpen_fine (by rw [h.1, hpath]; exact g1) g2 (by omega) (by rw [g3]; omega)
    have key : CFine items (zipOpen (zipEnter i zf w)).2 := h.say (w' := (zipOpen (zipEnter i zf w)).2) (cOpen_touch _ _).1 rfl hok
    exact ⟨fun _ _ _ _ => key, fun _ => key⟩
  save := by
    rintro i zf w o0 o c _ h hzf ho _ hc hst0 hse0 _ hq'
    have hsink : (zipOnSave total c w).1.sink = w.sink := by
      unfold zipOnSave
      simp only
      split
      · rfl
      · split <;> rfl
    refine ⟨by rw [hsink]; exact h.1, ?_⟩
    have hlog : ∃ ck a, (zipOnSave total c w).1.log = w.log ++ [.sync none] ++ [.save ck a] := by
      unfold zipOnSave
      simp only
      split
      · rename_i hx; cases hx
      · split <;> exact ⟨_, _, rfl⟩
    obtain ⟨ck, a, e⟩ := hlog
    rw [e]
    intro x hx
    simp at hx
    rcases hx with hx | rfl | rfl
    · exact h.2 x hx
    · rfl
    · rfl
  write := by
    rintro i zf w o0 o bs ⟨zf', q1, q2, q3, q4, q5, q6, q7⟩ h hzf hbs hol
    obtain rfl : zf = zf' := Option.some.inj (hzf.symm.trans q1)
    obtain ⟨c, _, _, ⟨wr, hl, hp, hof⟩, _⟩ := q3.node rfl
    obtain ⟨ws, hws⟩ := list_snoc_of_getLast? hl
    obtain ⟨r1, r2, _⟩ := cWrite_last bs w.sink ws wr hws
    obtain ⟨it, g1, g2, g3⟩ := hm.file (List.mem_of_getElem? hzf) q2
    have hit : wr.item = it := by
      have := (q3.inv.2 wr (by rw [hws]; simp)).1
      unfold CSt.item at this
      rw [hp, h.1, g1] at this
      exact (Option.some.inj this).symm
    have hok : (cWrite (w.sink.wr.length - 1) bs w.sink).1.2 = none := by
      rw [r1, hit, g3, hof, cCheck_fine _ _ _ hbs hol]
    have key : CFine items (w.write bs).2 := h.say (w' := (w.write bs).2) r2 rfl hok
    exact ⟨fun _ _ => key, fun _ => key⟩
  should i w o0 o n _ h := h
  emit i w o0 o _ h := h.say (w' := w.say (.progress (zipProgress total w))) rfl rfl rfl
  mid_bad i w o0 o _ h := h
  mid_stop i zf w o0 o _ h _ _ := h
  mid_end := fun i zf w o0 _ h _ _ _ => h
  copy := fun i zf w _ _ hzf _ hk hrs => absurd (hres zf (List.mem_of_getElem? hzf) hk) hrs
  copy_write := fun i w xs bs hq _ _ => (by
    obtain ⟨zf, hzf, q1, q2, _⟩ := hq
    exact absurd (hres zf (List.mem_of_getElem? hzf) q1) q2)
  copy_bad i w xs _ h := h
  copy_end := fun i zf w chunks _ h _ _ => h

theorem cPrealloc_fine {s : CSt} {e : Entry} {it : CItem} (h : s.items.find? (·.path = e.path) = some it) (hk : it.kind = .file) : (cPrealloc e s).1 = none := by
  have h' : s.item e.path = some it := h
  unfold cPrealloc cWith
  rw [h']
  simp [hk]

theorem zipPrealloc_fine (hm : Matches A D items) : ∀ (fs : List ZFile) (w : XW checkSink V), (∀ z ∈ fs, z ∈ A.files) → CFine items w → CFine items (zipPrealloc fs w).2 := by
  intro fs
  induction fs with
  | nil => intro w _ h; exact h
  | cons z fs ih =>
    intro w hz h
    unfold zipPrealloc
    have hz' : ∀ y ∈ fs, y ∈ A.files := fun y hy => hz y (List.mem_cons_of_mem _ hy)
    split
    · rename_i hk
      obtain ⟨it, g1, g2, _⟩ := hm.file (hz z (List.mem_cons_self ..)) hk
      have hok : (cPrealloc (zipFileEntry z) w.sink).1 = none := cPrealloc_fine (by rw [h.1]; exact g1) g2
      have key : CFine items (({ w with sink := (checkSink.preallocate (zipFileEntry z) w.sink).2 } : XW checkSink V).say (.prealloc (zipFileEntry z) (checkSink.preallocate (zipFileEntry z) w.sink).1)) :=
        h.say (cPrealloc_touch _ _).1 rfl hok
      simp only
      split
      · exact key
      · exact ih _ hz' key
    · exact ih _ hz' h

/-- A run into a checking sink whose items match. -/
theorem zipResume_fine {F : Nat} (hwf : ZipWF A D F) (env : ZEnv) (hh : env.Honest A) (hfit : (checkPath items).FitsAll A) (hist before : List ECkpt) (ck : Option ECkpt)
    (hm : Matches A D items) (hres : ∀ z ∈ A.files, (zipFileEntry z).kind = .file → z.resumable)
    (k : CSt) (u : V.St) (hok : CheckOK A D items hist k) (hck : ChooseCk hist ck before) :
    ∀ ev ∈ (zipResume A env D F checkSink V ck k u).2.log, ev.sinkError = none := by
  obtain ⟨⟨hinv, i0, o0, hup, hhold⟩, hsane, hlow⟩ := hok
  have hst : PathStart 0 A D (checkPath items) k ck before := by
    cases ck with
    | none => cases hck; exact .fresh
    | some c =>
      obtain ⟨i, o, hp, hle, hub⟩ := hup.choose hck
      exact .pick hp hub (hhold.mono (pathCk_le hp) hle (Nat.zero_le _))
  refine (zipResume_steps hwf (fineExtra items env hh (zipSum A.files) hfit V before hm hres).steps ck k u ?_).1.2.2
  intro r hr
  obtain ⟨b1, b2, b3⟩ := pathStart_steps hh (checkPath items) hfit before ck k u hinv hst r hr
  have hp : CFine items r.2 := by
    cases ck with
    | some c => subst hr; exact ⟨hsane.items, fun _ h => (by cases h)⟩
    | none =>
      have hr' : zipPrealloc A.files (zipInit A none k u : XW checkSink V) = r := hr
      rw [← hr']
      exact zipPrealloc_fine hm A.files _ (fun _ h => h) ⟨hsane.items, fun _ h => (by cases h)⟩
  refine ⟨⟨b1, hp⟩, fun hn => ?_, b3⟩
  obtain ⟨j, hj, hb⟩ := b2 hn
  exact ⟨j, hj, hb, hp⟩

end
end Savior
