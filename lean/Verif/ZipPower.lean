import Verif.ZipPath
import Verif.ZipExtra
import Verif.Spec.Power
/-!
# Zip extraction and power loss
-/

namespace Savior

theorem Durable.run_snoc (d : Durable) (log : List Ev) (ev : Ev) : d.run (log ++ [ev]) = (d.run log).ev ev := by
  simp [Durable.run]

section
variable {K : SinkM} {V : SaveCons}

/-- What is known of the sink, of what is on stable storage, and of the checkpoints `cks`. -/
structure PowSt (A : Archive) (D : Decomp) (P : PathLaw K) (cks : List ECkpt) (d : Durable) (s : K.St) : Prop where
  sub : ∀ p, d.safe p <+: d.text p
  real : ∀ z ∈ A.files, P.shown z.name = true → d.text z.name ≠ [] → ∃ c, P.node s z.name = some (.file c) ∧ d.text z.name <+: c
  ck : ∀ c ∈ cks, ∀ i zf o, PathSaved A D P.shown c i zf o → P.shown zf.name = true → Unshadowed A i → (zipContent A D zf).1.take o <+: d.safe zf.name

variable {A : Archive} {D : Decomp} {P : PathLaw K}

/-- The checkpoints for the path of the member being extracted are for that member, and not later. -/
theorem ck_name {cks : List ECkpt} {i o : Nat} {zf : ZFile} (h : UpTo A D P.shown cks i o) (hzf : A.files[i]? = some zf) {c : ECkpt} (hc : c ∈ cks)
    {i' o' : Nat} {zf' : ZFile} (hp : PathSaved A D P.shown c i' zf' o') (hs : P.shown zf'.name = true) (hu : Unshadowed A i') (hn : zf'.name = zf.name) :
    i' = i ∧ zf' = zf ∧ o' ≤ o := by
  obtain ⟨i1, o1, h1, h2⟩ := h.each c hc
  obtain ⟨rfl, rfl⟩ := pathCk_unique h1 (Or.inl ⟨zf', hp⟩)
  rcases h2 with h2 | ⟨h2, h3⟩
  · exact absurd hn.symm (hu i zf' zf h2 hp.saved.file hzf)
  · subst h2
    have : zf' = zf := Option.some.inj (hp.saved.file.symm.trans hzf)
    subst this
    refine ⟨rfl, rfl, ?_⟩
    rcases h3 with h3 | ⟨z, hz, h3⟩
    · exact h3
    · rw [Option.some.inj (hz.symm.trans hzf)] at h3
      rw [h3] at hs; cases hs

/-- A call on one path, of which nothing is known afterwards. -/
theorem PowSt.dropped {cks : List ECkpt} {d : Durable} {s s' : K.St} (h : PowSt A D P cks d s) (p : Str) (cur : Option Str)
    (hfr : ∀ z ∈ A.files, ∀ n, z.name ≠ p → P.node s z.name = some n → P.node s' z.name = some n)
    (hck : ∀ c ∈ cks, ∀ i zf o, PathSaved A D P.shown c i zf o → P.shown zf.name = true → Unshadowed A i → zf.name ≠ p) :
    PowSt A D P cks { d.drop p with cur := cur } s' := by
  refine ⟨fun q => ?_, fun z hz hs ht => ?_, fun c hc i zf o hp hs hu => ?_⟩
  · show (if q = p then [] else d.safe q) <+: (if q = p then [] else d.text q)
    split
    · exact List.prefix_refl _
    · exact h.sub q
  · have hne : z.name ≠ p := by
      intro he
      apply ht
      show (if z.name = p then [] else d.text z.name) = []
      rw [if_pos he]
    have ht' : (if z.name = p then [] else d.text z.name) ≠ [] := ht
    rw [if_neg hne] at ht'
    obtain ⟨c, h1, h2⟩ := h.real z hz hs ht'
    refine ⟨c, hfr z hz _ hne h1, ?_⟩
    show (if z.name = p then [] else d.text z.name) <+: c
    rw [if_neg hne]; exact h2
  · show _ <+: (if zf.name = p then [] else d.safe zf.name)
    rw [if_neg (hck c hc i zf o hp hs hu)]
    exact h.ck c hc i zf o hp hs hu

/-- Opening a file at an offset up to which its content is known. -/
theorem PowSt.cutAt {cks : List ECkpt} {d : Durable} {s s' : K.St} (h : PowSt A D P cks d s) (p : Str) (n : Nat) (cur : Option Str)
    (hfr : ∀ z ∈ A.files, ∀ n, z.name ≠ p → P.node s z.name = some n → P.node s' z.name = some n)
    (hn : n ≤ (d.text p).length)
    (hnode : P.shown p = true → ∀ c0, P.node s p = some (.file c0) → n ≤ c0.length → ∃ c, P.node s' p = some (.file c) ∧ n ≤ c.length ∧ c.take n = c0.take n)
    (hck : ∀ c ∈ cks, ∀ i zf o, PathSaved A D P.shown c i zf o → P.shown zf.name = true → Unshadowed A i → zf.name = p → o ≤ n) :
    PowSt A D P cks { d.cut p n with cur := cur } s' := by
  refine ⟨fun q => ?_, fun z hz hs ht => ?_, fun c hc i zf o hp hs hu => ?_⟩
  · show (if q = p then (d.safe p).take n else d.safe q) <+: (if q = p then (d.text p).take n else d.text q)
    split
    · obtain ⟨t, ht⟩ := h.sub p
      rw [← ht, List.take_append]
      exact List.prefix_append _ _
    · exact h.sub q
  · by_cases hne : z.name = p
    · have ht' : (if z.name = p then (d.text p).take n else d.text z.name) ≠ [] := ht
      rw [if_pos hne] at ht'
      have hnil : d.text z.name ≠ [] := by
        rw [hne]
        intro h0
        rw [h0] at ht'
        simp at ht'
      obtain ⟨c0, h1, h2⟩ := h.real z hz hs hnil
      rw [hne] at h1 h2 hs
      obtain ⟨c, g1, g2, g3⟩ := hnode hs c0 h1 (Nat.le_trans hn h2.length_le)
      rw [hne]
      refine ⟨c, g1, ?_⟩
      show (if p = p then (d.text p).take n else d.text p) <+: c
      rw [if_pos rfl]
      obtain ⟨t, ht0⟩ := h2
      have : (d.text p).take n = c0.take n := by rw [← ht0, List.take_append_of_le_length hn]
      rw [this, ← g3]
      exact List.take_prefix _ _
    · have ht' : (if z.name = p then (d.text p).take n else d.text z.name) ≠ [] := ht
      rw [if_neg hne] at ht'
      obtain ⟨c, h1, h2⟩ := h.real z hz hs ht'
      refine ⟨c, hfr z hz _ hne h1, ?_⟩
      show (if z.name = p then (d.text p).take n else d.text z.name) <+: c
      rw [if_neg hne]; exact h2
  · show _ <+: (if zf.name = p then (d.safe p).take n else d.safe zf.name)
    have := h.ck c hc i zf o hp hs hu
    split
    · rename_i he
      have ho := hck c hc i zf o hp hs hu he
      rw [he] at this
      have h2 : ((zipContent A D zf).1.take o).length ≤ n := by simp; omega
      obtain ⟨t, ht⟩ := this
      rw [← ht, List.take_append, List.take_of_length_le h2]
      exact List.prefix_append _ _
    · exact this

/-- Nothing known changes. -/
theorem PowSt.congr {cks cks' : List ECkpt} {d : Durable} {s s' : K.St} (h : PowSt A D P cks d s) (hk : ∀ c ∈ cks', c ∈ cks)
    (hn : P.node s' = P.node s) (cur : Option Str) : PowSt A D P cks' { d with cur := cur } s' :=
  ⟨h.sub, by rw [hn]; exact h.real, fun c hc => h.ck c (hk c hc)⟩

/-- The current writer is on the path of this member, whose content is exactly known; or nothing is known of it. -/
def PowCur (A : Archive) (P : PathLaw K) (i : Nat) (zf : ZFile) (d : Durable) (s : K.St) : Prop :=
  (d.cur = some zf.name ∧ (P.shown zf.name = true → P.node s zf.name = some (.file (d.text zf.name)))) ∨
  (d.cur = none ∧ d.text zf.name = [] ∧ ¬ Unshadowed A i)

/-- A write that went well. -/
theorem PowSt.written {cks : List ECkpt} {d : Durable} {s s' : K.St} {i : Nat} {zf : ZFile} {bs : List Byte} (h : PowSt A D P cks d s) (hcur : PowCur A P i zf d s)
    (hfr : ∀ z ∈ A.files, ∀ n, z.name ≠ zf.name → P.node s z.name = some n → P.node s' z.name = some n)
    (hw : P.shown zf.name = true → ∀ c, P.node s zf.name = some (.file c) → P.node s' zf.name = some (.file (c ++ bs))) (n : Nat) :
    PowSt A D P cks (d.ev (.write bs n none)) s' ∧ PowCur A P i zf (d.ev (.write bs n none)) s' := by
  rcases hcur with ⟨h1, h2⟩ | ⟨h1, h2, h3⟩
  · have hev : d.ev (.write bs n none) = { d with text := fun q => if q = zf.name then d.text zf.name ++ bs else d.text q } := by
      unfold Durable.ev; simp only [h1]
    rw [hev]
    refine ⟨⟨fun q => ?_, fun z hz hs ht => ?_, h.ck⟩, Or.inl ⟨h1, fun hs => ?_⟩⟩
    · show d.safe q <+: (if q = zf.name then d.text zf.name ++ bs else d.text q)
      split
      · rename_i hq
        rw [hq]
        exact (h.sub zf.name).trans (List.prefix_append _ _)
      · exact h.sub q
    · by_cases hne : z.name = zf.name
      · rw [hne] at hs ⊢
        refine ⟨_, hw hs _ (h2 hs), ?_⟩
        show (if zf.name = zf.name then d.text zf.name ++ bs else d.text zf.name) <+: _
        rw [if_pos rfl]
        exact List.prefix_refl _
      · have ht' : (if z.name = zf.name then d.text zf.name ++ bs else d.text z.name) ≠ [] := ht
        rw [if_neg hne] at ht'
        obtain ⟨c, g1, g2⟩ := h.real z hz hs ht'
        refine ⟨c, hfr z hz _ hne g1, ?_⟩
        show (if z.name = zf.name then d.text zf.name ++ bs else d.text z.name) <+: c
        rw [if_neg hne]; exact g2
    · show P.node s' zf.name = some (.file (if zf.name = zf.name then d.text zf.name ++ bs else d.text zf.name))
      rw [if_pos rfl]
      exact hw hs _ (h2 hs)
  · have hev : d.ev (.write bs n none) = d := by
      unfold Durable.ev; simp only [h1]
    rw [hev]
    refine ⟨⟨h.sub, fun z hz hs ht => ?_, h.ck⟩, Or.inr ⟨h1, h2, h3⟩⟩
    by_cases hne : z.name = zf.name
    · rw [hne, h2] at ht; exact absurd rfl ht
    · obtain ⟨c, g1, g2⟩ := h.real z hz hs ht
      exact ⟨c, hfr z hz _ hne g1, g2⟩

/-- A write that failed. -/
theorem PowSt.unwritten {cks : List ECkpt} {d : Durable} {s s' : K.St} {i : Nat} {zf : ZFile} {bs : List Byte} (h : PowSt A D P cks d s) (hcur : PowCur A P i zf d s)
    (hfr : ∀ z ∈ A.files, ∀ n, z.name ≠ zf.name → P.node s z.name = some n → P.node s' z.name = some n)
    (hw : P.shown zf.name = true → ∀ c, P.node s zf.name = some (.file c) → ∃ k, P.node s' zf.name = some (.file (c ++ bs.take k))) (n : Nat) (x : Err) :
    PowSt A D P cks (d.ev (.write bs n (some x))) s' := by
  show PowSt A D P cks { d with cur := none } s'
  refine ⟨h.sub, fun z hz hs ht => ?_, h.ck⟩
  by_cases hne : z.name = zf.name
  · rw [hne] at hs ht ⊢
    rcases hcur with ⟨h1, h2⟩ | ⟨h1, h2, h3⟩
    · obtain ⟨k, hk⟩ := hw hs _ (h2 hs)
      exact ⟨_, hk, List.prefix_append _ _⟩
    · exact absurd h2 ht
  · obtain ⟨c, g1, g2⟩ := h.real z hz hs ht
    exact ⟨c, hfr z hz _ hne g1, g2⟩

/-- What is known during a run. -/
abbrev Pow (A : Archive) (D : Decomp) (P : PathLaw K) (before : List ECkpt) (d0 : Durable) (w : XW K V) : Prop :=
  PowSt A D P (before ++ savedCks w.log) (d0.run w.log) w.sink

theorem pow_open {before : List ECkpt} {d0 : Durable} (hfit : P.FitsAll A) {i o : Nat} {zf : ZFile} {e : Entry} {n : Nat} {w : XW K V} (hzf : A.files[i]? = some zf)
    (hk : (zipFileEntry zf).kind = .file) (hpath : e.path = zf.name) (hn : e.woff = (n : Int)) (hinv : P.Inv w.sink)
    (hcur : CurLe A D P.shown before w.log i o) (hno : P.shown zf.name = true → n = o) (h : Pow A D P before d0 w)
    (hknown : P.shown zf.name = true → Unshadowed A i → n ≤ ((d0.run w.log).text zf.name).length)
    (hz : P.shown zf.name = false → n = 0) :
    PowSt A D P (before ++ savedCks w.log) ((d0.run w.log).ev (.openW e (K.getWriter e w.sink).1)) (K.getWriter e w.sink).2 ∧
    ((K.getWriter e w.sink).1 = none → PowCur A P i zf ((d0.run w.log).ev (.openW e (K.getWriter e w.sink).1)) (K.getWriter e w.sink).2) := by
  have hmem := List.mem_of_getElem? hzf
  have hf : P.Fits e.path .file := by rw [hpath, ← hk]; exact hfit zf hmem
  have hfr : ∀ z ∈ A.files, ∀ n, z.name ≠ zf.name → P.node w.sink z.name = some n → P.node (K.getWriter e w.sink).2 z.name = some n := by
    intro z hz n hp
    exact P.open_frame _ _ _ _ _ hinv hf (hfit z hz) (by rw [hpath]; exact hp)
  unfold Pow at h
  generalize hd : d0.run w.log = d at *
  unfold Durable.ev
  by_cases hc : 0 ≤ e.woff ∧ e.woff ≤ ((d.text e.path).length : Int)
  · simp only [if_pos hc]
    have hn' : e.woff.toNat = n := by omega
    have hle : n ≤ (d.text zf.name).length := by rw [← hpath]; omega
    rw [hn', hpath]
    have hck : ∀ c ∈ before ++ savedCks w.log, ∀ i' zf' o', PathSaved A D P.shown c i' zf' o' → P.shown zf'.name = true → Unshadowed A i' → zf'.name = zf.name → o' ≤ n := by
      intro c hc i' zf' o' hp hs hu hnm
      obtain ⟨_, rfl, h3⟩ := ck_name hcur hzf hc hp hs hu hnm
      rw [hno hs]; exact h3
    constructor
    · refine h.cutAt zf.name n _ hfr hle ?_ hck
      intro hs c0 hc0 hlen
      by_cases hok : (K.getWriter e w.sink).1 = none
      · obtain ⟨c, g1, g2, g3, g4⟩ := P.open_ok e w.sink n hinv hf (by rw [hpath]; exact hs) hn hok
        rw [hpath] at g1 g4
        exact ⟨c, g1, by omega, by rw [g4 c0 hc0 hlen, List.take_take, Nat.min_self]⟩
      · have := P.open_fail e w.sink n hinv hf (by rw [hpath]; exact hs) hn hok c0 (by rw [hpath]; exact hc0) hlen
        rw [hpath] at this
        exact this
    · intro hok
      rw [hok]
      refine Or.inl ⟨rfl, fun hs => ?_⟩
      obtain ⟨c, g1, g2, g3, g4⟩ := P.open_ok e w.sink n hinv hf (by rw [hpath]; exact hs) hn hok
      rw [hpath] at g1 g4
      show P.node (K.getWriter e w.sink).2 zf.name = some (.file (if zf.name = zf.name then (d.text zf.name).take n else d.text zf.name))
      rw [if_pos rfl, g1]
      congr 2
      rcases Nat.eq_zero_or_pos n with h0 | h0
      · subst h0
        rw [List.take_zero]
        exact List.length_eq_zero_iff.1 g2
      · obtain ⟨c0, k1, k2⟩ := h.real zf hmem hs (by intro h; rw [h] at hle; simp at hle; omega)
        rw [g4 c0 k1 (Nat.le_trans hle k2.length_le)]
        obtain ⟨t, ht⟩ := k2
        rw [← ht, List.take_append_of_le_length hle]
  · simp only [if_neg hc]
    have hgt : (d.text zf.name).length < n := by rw [← hpath]; omega
    have hs : P.shown zf.name = true := by
      cases hs : P.shown zf.name with
      | true => rfl
      | false => have := hz hs; omega
    have hu : ¬ Unshadowed A i := by
      intro hu
      have := hknown hs hu
      omega
    rw [hpath]
    refine ⟨h.dropped zf.name none hfr ?_, fun _ => Or.inr ⟨rfl, ?_, hu⟩⟩
    · intro c hc i' zf' o' hp hs hu' hnm
      obtain ⟨rfl, _, _⟩ := ck_name hcur hzf hc hp hs hu' hnm
      exact hu hu'
    · show (if zf.name = zf.name then [] else d.text zf.name) = []
      rw [if_pos rfl]

/-- What is known at each step of a run. -/
def powExtra (lo : Nat) (env : ZEnv) (hh : env.Honest A) (total : Int) (hfit : P.FitsAll A) (V : SaveCons) (before : List ECkpt) (d0 : Durable) :
    ZipExtra (pathSteps lo A D env hh total K P hfit V before) where
  Beg i w := Pow A D P before d0 w ∧ ∀ zf o, PathSaved A D P.shown w.ck i zf o → P.shown zf.name = true → Unshadowed A i →
    o ≤ ((d0.run w.log).text zf.name).length
  Mid i _ _ w := Pow A D P before d0 w ∧ ∀ zf, A.files[i]? = some zf → PowCur A P i zf (d0.run w.log) w.sink
  Cop i _ w := Pow A D P before d0 w ∧ ∀ zf, A.files[i]? = some zf → PowCur A P i zf (d0.run w.log) w.sink
  Bad w := Pow A D P before d0 w
  beg_bad i w _ h := h.1
  enter_bad i zf w _ h _ := h.1
  zero_bad i zf w _ h _ _ _ _ := h.1
  mkdir := by
    rintro i zf w hq h hzf _ hk w' rfl
    have hinv : P.Inv w.sink := hq.choose_spec.2.2.2.2
    obtain ⟨o, h1, h2, h3, _, h5⟩ := pathBeg_entry hq hzf
    have hpath : (w.ck.entry.getD (zipFileEntry zf)).path = zf.name := by rw [h1]; rfl
    have hmem := List.mem_of_getElem? hzf
    have hf : P.Fits (w.ck.entry.getD (zipFileEntry zf)).path .dir := by rw [hpath, ← hk]; exact hfit zf hmem
    have hfr : ∀ z ∈ A.files, ∀ n, z.name ≠ zf.name → P.node w.sink z.name = some n →
        P.node (K.mkdir (w.ck.entry.getD (zipFileEntry zf)) w.sink).2 z.name = some n := by
      intro z hz n hp; exact P.mkdir_frame _ _ _ _ _ hinv hf (hfit z hz) (by rw [hpath]; exact hp)
    have key : PowSt A D P (before ++ savedCks w.log) ((d0.run w.log).drop zf.name) (K.mkdir (w.ck.entry.getD (zipFileEntry zf)) w.sink).2 := by
      refine h.1.dropped zf.name (d0.run w.log).cur hfr ?_
      intro c hc i' zf' o' hp hs hu hnm
      obtain ⟨rfl, rfl, _⟩ := ck_name h3 hzf hc hp hs hu hnm
      rw [hp.kind] at hk; cases hk
    have key2 : ∀ x, PowSt A D P (before ++ savedCks (w.log ++ [.mkdir (w.ck.entry.getD (zipFileEntry zf)) x]))
        (d0.run (w.log ++ [.mkdir (w.ck.entry.getD (zipFileEntry zf)) x])) (K.mkdir (w.ck.entry.getD (zipFileEntry zf)) w.sink).2 := by
      intro x
      rw [savedCks_say _ _ (by simp), Durable.run_snoc]
      show PowSt A D P _ ((d0.run w.log).drop _) _
      rw [hpath]; exact key
    exact ⟨fun _ => ⟨key2 _, fun zf' o hp => absurd hp.entry (by simp [zipNext])⟩, fun _ => key2 _⟩
  symlink := by
    rintro i zf w chunks hq h hzf _ hk _ w' rfl
    have hinv : P.Inv w.sink := hq.choose_spec.2.2.2.2
    obtain ⟨o, h1, h2, h3, _, h5⟩ := pathBeg_entry hq hzf
    have hpath : (w.ck.entry.getD (zipFileEntry zf)).path = zf.name := by rw [h1]; rfl
    have hmem := List.mem_of_getElem? hzf
    have hf : P.Fits (w.ck.entry.getD (zipFileEntry zf)).path .symlink := by rw [hpath, ← hk]; exact hfit zf hmem
    have hfr : ∀ z ∈ A.files, ∀ n, z.name ≠ zf.name → P.node w.sink z.name = some n →
        P.node (K.symlink (w.ck.entry.getD (zipFileEntry zf)) chunks.flatten w.sink).2 z.name = some n := by
      intro z hz n hp; exact P.symlink_frame _ _ _ _ _ _ hinv hf (hfit z hz) (by rw [hpath]; exact hp)
    have key : PowSt A D P (before ++ savedCks w.log) ((d0.run w.log).drop zf.name) (K.symlink (w.ck.entry.getD (zipFileEntry zf)) chunks.flatten w.sink).2 := by
      refine h.1.dropped zf.name (d0.run w.log).cur hfr ?_
      intro c hc i' zf' o' hp hs hu hnm
      obtain ⟨rfl, rfl, _⟩ := ck_name h3 hzf hc hp hs hu hnm
      rw [hp.kind] at hk; cases hk
    have key2 : ∀ x, PowSt A D P (before ++ savedCks (w.log ++ [.symlink (w.ck.entry.getD (zipFileEntry zf)) chunks.flatten x]))
        (d0.run (w.log ++ [.symlink (w.ck.entry.getD (zipFileEntry zf)) chunks.flatten x])) (K.symlink (w.ck.entry.getD (zipFileEntry zf)) chunks.flatten w.sink).2 := by
      intro x
      rw [savedCks_say _ _ (by simp), Durable.run_snoc]
      show PowSt A D P _ ((d0.run w.log).drop _) _
      rw [hpath]; exact key
    exact ⟨fun _ => ⟨key2 _, fun zf' o hp => absurd hp.entry (by simp [zipNext])⟩, fun _ => key2 _⟩
  open_ := by
    intro i zf w o0 oc hq h hzf _ hk hrs hsa hoc
    have hinv : P.Inv w.sink := hq.choose_spec.2.2.2.2
    obtain ⟨o, h1, h2, h3, h4, h5⟩ := pathBeg_entry hq hzf
    have hsaved : 0 < o → P.shown zf.name = true → ∃ zf', PathSaved A D P.shown w.ck i zf' o := by
      intro ho _
      obtain ⟨o', _, _, g3, _⟩ := hq
      rcases g3 with ⟨rfl, _, g4⟩ | ⟨zf', g⟩
      · rcases h4 with ⟨_, h4⟩ | ⟨c, h4, _⟩
        · omega
        · rw [g4] at h4; cases h4
      · refine ⟨zf', ?_⟩
        obtain rfl : zf = zf' := Option.some.inj (hzf.symm.trans g.saved.file)
        have := startsAt_unique h4 (Or.inr g.saved.src)
        rw [this]; exact g
    have hpath : (w.ck.entry.getD (zipFileEntry zf)).path = zf.name := by rw [h1]; rfl
    have key := pow_open (n := shownOff P.shown zf o) (w := w) hfit hzf hk hpath (by rw [h1]) hinv h3 (by intro hs; unfold shownOff; rw [hs]; rfl) h.1
      (by
        intro hs hu
        unfold shownOff
        rw [hs, if_pos rfl]
        rcases Nat.eq_zero_or_pos o with h0 | h0
        · omega
        · obtain ⟨zf', g⟩ := hsaved h0 hs
          obtain rfl : zf = zf' := Option.some.inj (hzf.symm.trans g.saved.file)
          exact h.2 zf o g hs hu)
      (by intro hs; unfold shownOff; rw [hs]; rfl)
    have key2 : Pow A D P before d0 (zipOpen (zipEnter i zf w)).2 := by
      show PowSt A D P (before ++ savedCks (w.log ++ [.openW (w.ck.entry.getD (zipFileEntry zf)) (K.getWriter (w.ck.entry.getD (zipFileEntry zf)) w.sink).1]))
        (d0.run (w.log ++ [.openW (w.ck.entry.getD (zipFileEntry zf)) (K.getWriter (w.ck.entry.getD (zipFileEntry zf)) w.sink).1]))
        (K.getWriter (w.ck.entry.getD (zipFileEntry zf)) w.sink).2
      rw [savedCks_say _ _ (by simp), Durable.run_snoc]
      exact key.1
    refine ⟨fun hok _ _ _ => ⟨key2, ?_⟩, fun _ => key2⟩
    intro zf' hzf'
    obtain rfl : zf = zf' := Option.some.inj (hzf.symm.trans hzf')
    show PowCur A P i zf (d0.run (w.log ++ [.openW (w.ck.entry.getD (zipFileEntry zf)) (K.getWriter (w.ck.entry.getD (zipFileEntry zf)) w.sink).1]))
        (K.getWriter (w.ck.entry.getD (zipFileEntry zf)) w.sink).2
    rw [Durable.run_snoc]
    exact key.2 hok
  save := by
    rintro i zf w o0 o c ⟨zf', q1, q2, q3, q4, q5, q6, q7⟩ h hzf ho _ hc hst0 hse0 _ hq'
    obtain rfl : zf = zf' := Option.some.inj (hzf.symm.trans q1)
    obtain ⟨s0, s1, s2, s3⟩ := P.sync_spec w.sink q3.inv
    have hsink : (zipOnSave total c w).1.sink = (K.sync w.sink).2 := by
      unfold zipOnSave
      simp only
      split
      · rfl
      · split <;> rfl
    have hcur := h.2 zf hzf
    show Pow A D P before d0 (zipOnSave total c w).1 ∧ ∀ zf, A.files[i]? = some zf → PowCur A P i zf (d0.run (zipOnSave total c w).1.log) (zipOnSave total c w).1.sink
    rcases zipOnSave_log total c w with ⟨y, e1, _⟩ | ⟨a, e1, _⟩
    · unfold Pow
      rw [e1, hsink, savedCks_say _ _ (by simp), Durable.run_snoc]
      refine ⟨h.1.congr (fun _ h => h) s1 _, fun zf' hzf' => ?_⟩
      obtain rfl : zf = zf' := Option.some.inj (hzf.symm.trans hzf')
      unfold PowCur
      rw [s1]
      exact hcur
    · unfold Pow
      rw [e1, hsink, savedCks_save, savedCks_say _ _ (by simp), Durable.run_snoc, Durable.run_snoc]
      have hps : PathSaved A D P.shown (savedOf total c w) i zf o := ⟨⟨hzf, q5, ⟨_, q6⟩, c, rfl, hc⟩, q2, q6, ho⟩
      show PowSt A D P _ ((d0.run w.log).ev (.sync none)) _ ∧ ∀ zf, A.files[i]? = some zf → PowCur A P i zf ((d0.run w.log).ev (.sync none)) _
      generalize hd : d0.run w.log = d at *
      have hP : PowSt A D P (before ++ savedCks w.log) d w.sink := by rw [← hd]; exact h.1
      have new : ∀ {safe : Str → List Byte}, (∀ q, d.safe q <+: safe q) → (P.shown zf.name = true → Unshadowed A i → safe zf.name = d.text zf.name ∧ d.cur ≠ none) →
          ∀ x ∈ before ++ (savedCks w.log ++ [savedOf total c w]), ∀ i' zf' o', PathSaved A D P.shown x i' zf' o' → P.shown zf'.name = true → Unshadowed A i' →
          (zipContent A D zf').1.take o' <+: safe zf'.name := by
        intro safe hsafe hnew x hx i' zf' o' hp hs hu
        rw [← List.append_assoc] at hx
        rcases List.mem_append.1 hx with hx | hx
        · exact (hP.ck x hx i' zf' o' hp hs hu).trans (hsafe _)
        · rw [List.mem_singleton] at hx; subst hx
          obtain ⟨rfl, rfl⟩ := pathCk_unique (Or.inl ⟨zf, hps⟩) (Or.inl ⟨zf', hp⟩)
          obtain rfl : zf' = zf := Option.some.inj (hp.saved.file.symm.trans hzf)
          obtain ⟨e1, e2⟩ := hnew hs hu
          rw [e1]
          obtain ⟨cc, k2, k3, k4, k5⟩ := q3.node hs
          rw [← k5 hu]
          rcases hcur with ⟨_, g⟩ | ⟨g, _⟩
          · have := k2.symm.trans (g hs)
            simp at this
            rw [this]
            exact List.prefix_refl _
          · exact absurd g e2
      rcases hcur with ⟨g1, g2⟩ | ⟨g1, g2, g3⟩
      · have hev : d.ev (.sync none) = { d with safe := fun q => if q = zf.name then d.text zf.name else d.safe q } := by
          unfold Durable.ev; simp only [g1]
        rw [hev]
        refine ⟨⟨fun q => ?_, by rw [s1]; exact hP.real, new (fun q => ?_) fun _ _ => ⟨by simp, by rw [g1]; simp⟩⟩, fun zf' hzf' => ?_⟩
        · show (if q = zf.name then d.text zf.name else d.safe q) <+: d.text q
          split
          · rename_i hq; rw [hq]; exact List.prefix_refl _
          · exact hP.sub q
        · show d.safe q <+: (if q = zf.name then d.text zf.name else d.safe q)
          split
          · rename_i hq; rw [hq]; exact hP.sub _
          · exact List.prefix_refl _
        · obtain rfl : zf = zf' := Option.some.inj (hzf.symm.trans hzf')
          exact Or.inl ⟨g1, fun hs => by rw [s1]; exact g2 hs⟩
      · have hev : d.ev (.sync none) = d := by
          unfold Durable.ev; simp only [g1]
        rw [hev]
        refine ⟨⟨hP.sub, by rw [s1]; exact hP.real, new (fun q => List.prefix_refl _) fun _ hu => absurd hu g3⟩, fun zf' hzf' => ?_⟩
        obtain rfl : zf = zf' := Option.some.inj (hzf.symm.trans hzf')
        exact Or.inr ⟨g1, g2, g3⟩
  write := by
    rintro i zf w o0 o bs ⟨zf', q1, q2, q3, q4, q5, q6, q7⟩ h hzf hbs hol
    obtain rfl : zf = zf' := Option.some.inj (hzf.symm.trans q1)
    have hmem := List.mem_of_getElem? hzf
    have hf : P.Fits zf.name .file := by rw [← q2]; exact hfit zf hmem
    have hcur := h.2 zf hzf
    have hfr : ∀ z ∈ A.files, ∀ n, z.name ≠ zf.name → P.node w.sink z.name = some n → P.node (K.write bs w.sink).2 z.name = some n := by
      intro z hz n hne hn
      cases hs : P.shown zf.name with
      | true =>
        obtain ⟨c, k2, k3, k4, k5⟩ := q3.node hs
        subst k3
        obtain ⟨k, g1, g2, g3, g4, g5, g0, g6⟩ := P.write_spec bs w.sink zf.name c q3.inv hf k2 k4
        exact g6 _ _ n (hfit z hz) hne hn
      | false =>
        obtain ⟨d1, d2, d3, d4⟩ := P.write_deaf bs w.sink q3.inv (q3.deaf hs)
        rw [d3]; exact hn
    have hnode : P.shown zf.name = true → ∀ c, P.node w.sink zf.name = some (.file c) →
        ∃ k, P.node (K.write bs w.sink).2 zf.name = some (.file (c ++ bs.take k)) ∧ ((K.write bs w.sink).1.2.2 = none → k = bs.length) := by
      intro hs c hc
      obtain ⟨c', k2, k3, k4, k5⟩ := q3.node hs
      obtain rfl : c = c' := by have := hc.symm.trans k2; simpa using this
      subst k3
      obtain ⟨k, g1, g2, g3, g4, g5, g0, g6⟩ := P.write_spec bs w.sink zf.name c q3.inv hf k2 k4
      exact ⟨k, g2, fun h => (g5 h).1⟩
    have hw : ∀ r : Option Err, savedCks (w.log ++ [.write bs (K.write bs w.sink).1.1 r]) = savedCks w.log := fun r => savedCks_say _ _ (by simp)
    show ((K.write bs w.sink).1.2.2 = none → _ → Pow A D P before d0 (w.write bs).2 ∧ ∀ zf, A.files[i]? = some zf → PowCur A P i zf (d0.run (w.write bs).2.log) (w.write bs).2.sink) ∧
      ((K.write bs w.sink).1.2.2 ≠ none → Pow A D P before d0 (w.write bs).2)
    have hlog : (w.write bs).2.log = w.log ++ [.write bs (K.write bs w.sink).1.1 (K.write bs w.sink).1.2.2] := rfl
    have hsink : (w.write bs).2.sink = (K.write bs w.sink).2 := rfl
    unfold Pow
    rw [hlog, hsink, hw, Durable.run_snoc]
    refine ⟨fun hok _ => ?_, fun hbad => ?_⟩
    · rw [hok]
      have := h.1.written hcur hfr (bs := bs) (fun hs c hc => by
        obtain ⟨k, g1, g2⟩ := hnode hs c hc
        rw [g2 hok, List.take_length] at g1
        exact g1) (K.write bs w.sink).1.1
      refine ⟨this.1, fun zf' hzf' => ?_⟩
      obtain rfl : zf = zf' := Option.some.inj (hzf.symm.trans hzf')
      exact this.2
    · cases hx : (K.write bs w.sink).1.2.2 with
      | none => exact absurd hx hbad
      | some x =>
        exact h.1.unwritten hcur hfr (bs := bs) (fun hs c hc => by
          obtain ⟨k, g1, _⟩ := hnode hs c hc
          exact ⟨k, g1⟩) _ x
  should := by rintro i w o0 o n _ h; exact h
  emit := by
    rintro i w o0 o _ h
    show Pow A D P before d0 (w.say _) ∧ ∀ zf, A.files[i]? = some zf → PowCur A P i zf (d0.run (w.say _).log) w.sink
    have hlog : ∀ x, (w.say x).log = w.log ++ [x] := fun _ => rfl
    unfold Pow
    rw [hlog, savedCks_say _ _ (by simp), Durable.run_snoc]
    exact h
  mid_bad i w o0 o _ h := h.1
  mid_stop i zf w o0 o _ h _ _ := h.1
  mid_end := by
    rintro i zf w o0 _ h hzf _ _
    exact ⟨h.1, fun zf' o hp => absurd hp.entry (by simp [zipNext])⟩
  copy := by
    intro i zf w hq h hzf _ hk hrs
    have hinv : P.Inv w.sink := hq.choose_spec.2.2.2.2
    obtain ⟨o, h1, h2, h3, h4, h5⟩ := pathBeg_entry hq hzf
    have ho : o = 0 := by
      rcases h5 with h5 | ⟨_, h5⟩
      · exact h5
      · exact absurd h5 hrs
    subst ho
    have hpath : ({ w.ck.entry.getD (zipFileEntry zf) with woff := 0 } : Entry).path = zf.name := by
      show (w.ck.entry.getD (zipFileEntry zf)).path = zf.name
      rw [h1]; rfl
    have key := pow_open (n := 0) (w := w) hfit hzf hk hpath rfl hinv h3 (fun _ => rfl) h.1 (fun _ _ => Nat.zero_le _) (fun _ => rfl)
    have hl : (zipOpen (zipZero (zipEnter i zf w))).2.log = w.log ++ [.openW { w.ck.entry.getD (zipFileEntry zf) with woff := 0 } (K.getWriter { w.ck.entry.getD (zipFileEntry zf) with woff := 0 } w.sink).1] := rfl
    have key2 : Pow A D P before d0 (zipOpen (zipZero (zipEnter i zf w))).2 := by
      unfold Pow
      rw [hl, savedCks_say _ _ (by simp), Durable.run_snoc]
      exact key.1
    refine ⟨fun hok _ => ⟨key2, fun zf' hzf' => ?_⟩, fun _ => key2⟩
    obtain rfl : zf = zf' := Option.some.inj (hzf.symm.trans hzf')
    rw [hl, Durable.run_snoc]
    exact key.2 hok
  copy_write := by
    rintro i w xs bs ⟨zf, q1, q2, hrs, q3, q4, q5, q6, hinv, hse⟩ h _
    have hmem := List.mem_of_getElem? q1
    have hf : P.Fits zf.name .file := by rw [← q2]; exact hfit zf hmem
    have hcur := h.2 zf q1
    have hfr : ∀ z ∈ A.files, ∀ n, z.name ≠ zf.name → P.node w.sink z.name = some n → P.node (K.write bs w.sink).2 z.name = some n := by
      intro z hz n hne hn
      cases hs : P.shown zf.name with
      | true =>
        obtain ⟨k2, k4⟩ := q5 hs
        obtain ⟨k, g1, g2, g3, g4, g5, g0, g6⟩ := P.write_spec bs w.sink zf.name xs hinv hf k2 k4
        exact g6 _ _ n (hfit z hz) hne hn
      | false =>
        obtain ⟨d1, d2, d3, d4⟩ := P.write_deaf bs w.sink hinv (q6 hs)
        rw [d3]; exact hn
    have hnode : P.shown zf.name = true → ∀ c, P.node w.sink zf.name = some (.file c) →
        ∃ k, P.node (K.write bs w.sink).2 zf.name = some (.file (c ++ bs.take k)) ∧ ((K.write bs w.sink).1.2.2 = none → k = bs.length) := by
      intro hs c hc
      obtain ⟨k2, k4⟩ := q5 hs
      obtain rfl : c = xs := by have := hc.symm.trans k2; simpa using this
      obtain ⟨k, g1, g2, g3, g4, g5, g0, g6⟩ := P.write_spec bs w.sink zf.name c hinv hf k2 k4
      exact ⟨k, g2, fun h => (g5 h).1⟩
    have hw : ∀ r : Option Err, savedCks (w.log ++ [.write bs (K.write bs w.sink).1.1 r]) = savedCks w.log := fun r => savedCks_say _ _ (by simp)
    have hlog : (w.write bs).2.log = w.log ++ [.write bs (K.write bs w.sink).1.1 (K.write bs w.sink).1.2.2] := rfl
    have hsink : (w.write bs).2.sink = (K.write bs w.sink).2 := rfl
    have good : (K.write bs w.sink).1.2.2 = none → Pow A D P before d0 (w.write bs).2 ∧ ∀ zf, A.files[i]? = some zf → PowCur A P i zf (d0.run (w.write bs).2.log) (w.write bs).2.sink := by
      intro hok
      unfold Pow
      rw [hlog, hsink, hw, Durable.run_snoc, hok]
      have := h.1.written hcur hfr (bs := bs) (fun hs c hc => by
        obtain ⟨k, g1, g2⟩ := hnode hs c hc
        rw [g2 hok, List.take_length] at g1
        exact g1) (K.write bs w.sink).1.1
      refine ⟨this.1, fun zf' hzf' => ?_⟩
      obtain rfl : zf = zf' := Option.some.inj (q1.symm.trans hzf')
      exact this.2
    refine ⟨fun hok _ _ => good hok, ?_⟩
    cases hx : (K.write bs w.sink).1.2.2 with
    | none => exact (good hx).1
    | some x =>
      show Pow A D P before d0 (w.write bs).2
      unfold Pow
      rw [hlog, hsink, hw, Durable.run_snoc, hx]
      exact h.1.unwritten hcur hfr (bs := bs) (fun hs c hc => by
        obtain ⟨k, g1, _⟩ := hnode hs c hc
        exact ⟨k, g1⟩) _ x
  copy_bad i w xs _ h := h.1
  copy_end := by
    rintro i zf w chunks _ h hzf _
    exact ⟨h.1, fun zf' o hp => absurd hp.entry (by simp [zipNext])⟩

/-- What can be resumed from, power losses included. -/
def PowerOK (A : Archive) (D : Decomp) (P : PathLaw K) (hist : List ECkpt) (lo : Nat) (d : Durable) (k : K.St) : Prop :=
  P.Inv k ∧ (∃ i o, UpTo A D P.shown hist i o ∧ ∀ h z, lo ≤ h → h < i → A.files[h]? = some z → P.shown z.name = true → Unshadowed A h →
    P.node k z.name = some (zipNodeOf A D z)) ∧ PowSt A D P hist d k

/-- What is on storage of a saved member. -/
theorem PowSt.part {cks : List ECkpt} {d : Durable} {s : K.St} (h : PowSt A D P cks d s) {c : ECkpt} (hc : c ∈ cks) {i o : Nat} {zf : ZFile}
    (hp : PathSaved A D P.shown c i zf o) (hs : P.shown zf.name = true) (hu : Unshadowed A i) :
    o ≤ (d.text zf.name).length ∧ ∃ x, P.node s zf.name = some (.file x) ∧ o ≤ x.length ∧ x.take o = (zipContent A D zf).1.take o := by
  have h1 := (h.ck c hc i zf o hp hs hu).trans (h.sub zf.name)
  have hlen : o ≤ (zipContent A D zf).1.length := by
    obtain ⟨c, _, hc⟩ := hp.saved.src
    exact fileCk_le hc
  have hl : ((zipContent A D zf).1.take o).length = o := by simp [hlen]
  have h2 := h1.length_le
  rw [hl] at h2
  refine ⟨h2, ?_⟩
  have hpos := hp.pos
  obtain ⟨x, g1, g2⟩ := h.real zf (List.mem_of_getElem? hp.saved.file) hs (by intro h0; rw [h0] at h2; simp at h2; omega)
  obtain ⟨t, ht⟩ := h1.trans g2
  refine ⟨x, g1, ?_, ?_⟩
  · rw [← ht]; simp; omega
  · rw [← ht, List.take_append_of_le_length (by omega), List.take_take, Nat.min_self]

theorem zipPrealloc_none : ∀ (fs : List ZFile) (w : XW K V),
    ((zipPrealloc fs w).2.log = w.log ∧ (zipPrealloc fs w).2.sink = w.sink) ∨ ∃ l e x, (zipPrealloc fs w).2.log = l ++ [.prealloc e x] := by
  intro fs
  induction fs with
  | nil => intro w; exact Or.inl ⟨rfl, rfl⟩
  | cons z fs ih =>
    intro w
    unfold zipPrealloc
    split
    · simp only
      split
      · exact Or.inr ⟨w.log, _, _, rfl⟩
      · rcases ih (({ w with sink := (K.preallocate (zipFileEntry z) w.sink).2 }).say (.prealloc (zipFileEntry z) (K.preallocate (zipFileEntry z) w.sink).1)) with ⟨h, _⟩ | h
        · exact Or.inr ⟨_, _, _, h⟩
        · exact Or.inr h
    · exact ih w

/-- What one run does, given what a history of runs and power losses leaves. -/
theorem zipResume_power {F : Nat} (hwf : ZipWF A D F) (env : ZEnv) (hh : env.Honest A) (hfit : P.FitsAll A)
    (hist before : List ECkpt) (lo : Nat) (d : Durable) (ck : Option ECkpt) (k : K.St) (u : V.St) (hok : PowerOK A D P hist lo d k) (hck : ChooseCk hist ck before) :
    PathEnd (min lo (startIndex ck)) A D P before (zipResume A env D F K V ck k u).2 ∧
    Pow A D P before d (zipResume A env D F K V ck k u).2 ∧
    (∀ res, (zipResume A env D F K V ck k u).1 = .ok res →
      HoldsFrom (min lo (startIndex ck)) A D P.shown (P.node (zipResume A env D F K V ck k u).2.sink) A.files.length 0) ∧
    ((zipResume A env D F K V ck k u).1 = .error .stop → (zipResume A env D F K V ck k u).2.stopErr = true) := by
  obtain ⟨hinv, ⟨i0, o0, hup, hdone⟩, hpow⟩ := hok
  have hst : PathStart (min lo (startIndex ck)) A D P k ck before := by
    cases ck with
    | none => cases hck; exact .fresh
    | some c =>
      obtain ⟨i, o, hp, hle, hub⟩ := hup.choose hck
      have hidx : c.entryIndex = i := by
        rcases hp with ⟨zf, hp⟩ | ⟨hp, _⟩
        · exact hp.saved.index
        · exact hp
      have hsi : startIndex (some c) = i := by
        show c.entryIndex.toNat = i
        rw [hidx]; rfl
      have hii : i ≤ i0 := by rcases hle with hle | ⟨hle, _⟩ <;> omega
      refine .pick hp hub ⟨fun h z hl hlt hz hs hu => hdone h z (by rw [hsi] at hl; omega) (by omega) hz hs hu, ?_⟩
      intro z hz hs hu hpos
      rcases hp with ⟨zf, hp⟩ | ⟨_, _, _, h0⟩
      · obtain rfl : zf = z := Option.some.inj (hp.saved.file.symm.trans hz)
        cases hck with
        | pick he => subst he; exact (hpow.part (c := c) (by simp) hp hs hu).2
      · omega
  have hsub : ∀ c ∈ before, c ∈ hist := by
    intro x hx
    cases hck with
    | fresh => cases hx
    | pick he => subst he; simp at hx ⊢; rcases hx with hx | hx <;> simp [hx]
  have key := zipResume_steps hwf (powExtra (min lo (startIndex ck)) env hh (zipSum A.files) hfit V before d).steps ck k u ?_
  · refine ⟨key.1.1, key.1.2, ?_, key.2.2⟩
    intro res hres
    obtain ⟨_, _, j, hj, ⟨o, hb, _⟩, _⟩ := key.2.1 res hres
    exact ⟨fun h z hl hlt hz hs hu => hb.done h z hl (by omega) hz hs hu, fun _ _ _ _ h => absurd h (Nat.lt_irrefl 0)⟩
  · intro r hr
    obtain ⟨b1, b2, b3⟩ := pathStart_steps hh P hfit before ck k u hinv hst r hr
    obtain ⟨p1, p2, _⟩ := zipPrepare_log A ck k u r hr
    have hsv : savedCks r.2.log = [] := by unfold savedCks; rw [saves_prealloc _ p1]; rfl
    have hp : Pow A D P before d r.2 := by
      unfold Pow
      rw [hsv, List.append_nil]
      cases ck with
      | some c =>
        have h1 : r.2.sink = k := by subst hr; rfl
        have h2 : r.2.log = [] := by subst hr; rfl
        rw [h1, h2]
        exact hpow.congr hsub rfl none
      | none =>
        cases hck
        have hpre := zipPrealloc_none A.files (zipInit A none k u : XW K V)
        have hr' : zipPrealloc A.files (zipInit A none k u : XW K V) = r := hr
        rw [hr'] at hpre
        rcases hpre with ⟨h1, h2⟩ | ⟨l, e, x, h1⟩
        · rw [h1, h2]
          exact hpow.congr hsub rfl none
        · rw [h1, Durable.run_snoc]
          exact ⟨fun _ => List.prefix_refl _, fun _ _ _ h => absurd rfl h, fun _ h => (by cases h)⟩
    refine ⟨⟨b1, hp⟩, fun hn => ?_, b3⟩
    obtain ⟨j, hj, hb⟩ := b2 hn
    refine ⟨j, hj, hb, hp, ?_⟩
    intro zf o hps hs hu
    cases ck with
    | none => rw [p2] at hps; exact absurd hps.entry (by simp [freshCk])
    | some c =>
      have h2 : r.2.log = [] := by subst hr; rfl
      rw [p2] at hps
      have hc : c ∈ before := by cases hck with | pick he => simp
      rw [h2]
      exact (hpow.part (hsub c hc) hps hs hu).1

/-- What any history of runs and power losses leaves. -/
theorem zipPower_ok {F : Nat} (hwf : ZipWF A D F) (hfit : P.FitsAll A) {k0 : K.St} (hk0 : P.Inv k0) {hist : List ECkpt} {lo : Nat} {d : Durable} {k : K.St}
    (h : ZipPower A D F K P k0 hist lo d k) : PowerOK A D P hist lo d k := by
  have next : ∀ {hist : List ECkpt} {lo : Nat} {d : Durable} {k k' : K.St}, PowerOK A D P hist lo d k → K.Next k k' → PowerOK A D P hist lo d k' := by
    rintro hist lo d k k' ⟨a, b, c⟩ (rfl | rfl)
    · exact ⟨a, b, c⟩
    · obtain ⟨g1, g2⟩ := P.reborn_spec k a
      exact ⟨g1, by rw [g2]; exact b, c.congr (fun _ h => h) g2 d.cur⟩
  induction h with
  | refl => exact ⟨hk0, ⟨0, 0, UpTo.nil .., fun h z _ hlt => absurd hlt (Nat.not_lt_zero _)⟩, fun _ => List.prefix_refl _, fun _ _ _ h => absurd rfl h, fun _ h => (by cases h)⟩
  | run env V u hh _ hc hn ih =>
    obtain ⟨g1, g2, _⟩ := zipResume_power hwf env hh hfit _ _ _ _ _ _ u ih hc
    obtain ⟨i, o, c1, c2⟩ := g1.2.1
    exact next ⟨g1.1, ⟨i, o, c1, c2.done⟩, g2⟩ hn
  | kept env V u hh _ hc hs hn ih =>
    obtain ⟨g1, g2, _, g3⟩ := zipResume_power hwf env hh hfit _ _ _ _ _ _ u ih hc
    have he := zipResume_stop_ck A env D F _ _ u hs (g3 hs)
    obtain ⟨h1, _, i, h2, h3⟩ := g1.2.2 (g3 hs) he
    refine next ⟨g1.1, ⟨i, 0, UpTo.snoc (UpTo.nil ..) (Or.inr ⟨h2, he, h1, rfl⟩), h3.done⟩, g2.sub, g2.real, ?_⟩ hn
    intro c hc i zf o hp
    rw [List.mem_singleton] at hc; subst hc
    exact absurd hp.entry (by rw [he]; simp)
  | loss _ hl ih =>
    obtain ⟨a, ⟨i, o, b, _⟩, c⟩ := ih
    refine ⟨hl.1, ⟨i, o, b, fun h z hle _ hz => ?_⟩, fun _ => List.prefix_refl _, hl.2, c.ck⟩
    have := (List.getElem?_eq_some_iff.1 hz).1
    omega

end
end Savior
