import Verif.Harness
import Verif.Asks
import Verif.Props.Alike
/-!
# The test harness (C70)
-/

namespace Savior

theorem testCons_good (th : Int) (Q : Asker) : (testCons th Q).Good := by
  intro ck u
  show ∃ a, ((testCons th Q).save ck u).1 = .ok a
  simp only [testCons]
  split
  · exact ⟨_, rfl⟩
  · exact ⟨_, rfl⟩

/-- What the consumer keeps. -/
theorem asks_kept {th : Int} {Q : Asker} {u : (testCons th Q).St} {l : List (ECkpt × Except Err Action)} {s : (testCons th Q).St} (h : Asks (testCons th Q) u l s) :
    (s.kept = u.kept ∨ ∃ c, s.kept = some c ∧ c ∈ l.map (·.1)) ∧ ∀ c, l.getLast? = some (c, .ok .stop) → s.kept = some c := by
  induction h with
  | start => exact ⟨.inl rfl, fun c h => by cases h⟩
  | should n _ ih => exact ih
  | @save l s c h ih =>
    simp only [testCons]
    split
    · refine ⟨.inr ⟨c, rfl, by simp⟩, fun c' h => ?_⟩
      rw [List.getLast?_concat] at h
      injection h with h
      injection h with h1 h2
      rw [h1]
    · refine ⟨?_, fun c' h => ?_⟩
      · rcases ih.1 with a | ⟨c', a, b⟩
        · exact .inl a
        · exact .inr ⟨c', a, by simp only [List.map_append, List.mem_append]; exact .inl b⟩
      · rw [List.getLast?_concat] at h
        injection h with h
        injection h with h1 h2
        cases h2

/-- A call of a save consumer: `ShouldSave`, `Save`. -/
inductive ConsOp
  | should (n : Int)
  | save (ck : ECkpt)

/-- A sequence of calls. -/
def SaveCons.calls (V : SaveCons) : List ConsOp → V.St → V.St
  | [], u => u
  | .should n :: t, u => V.calls t (V.shouldSave n u).2
  | .save ck :: t, u => V.calls t (V.save ck u).2

/-- The amounts announced after the last `Save`. -/
def sinceSave (ops : List ConsOp) : List Int :=
  (ops.reverse.takeWhile fun | .should _ => true | .save _ => false).filterMap fun | .should n => some n | .save _ => none

/-- **C70** (the counting consumer). `ShouldSave` says yes exactly if more than the threshold was copied since the last `Save` (or
since the start), the present amount included. -/
theorem C70_counter (th : Int) (Q : Asker) (x : Q.St) (ops : List ConsOp) (n : Int) :
    ((testCons th Q).shouldSave n ((testCons th Q).calls ops ⟨0, x, none⟩)).1 = true ↔ th < (sinceSave ops).sum + n := by
  have key : ∀ (l : List ConsOp) (u : (testCons th Q).St), HSt.c (X := Q.St) u = 0 → HSt.c (X := Q.St) ((testCons th Q).calls l.reverse u) = (sinceSave l.reverse).sum := by
    have snoc : ∀ (l : List ConsOp) (o : ConsOp) (u : (testCons th Q).St), (testCons th Q).calls (l ++ [o]) u = (testCons th Q).calls [o] ((testCons th Q).calls l u) := by
      intro l o
      induction l with
      | nil => intro u; rfl
      | cons a l ih => intro u; cases a <;> exact ih _
    intro l
    induction l with
    | nil => intro u h; simpa [SaveCons.calls, sinceSave] using h
    | cons o l ih =>
      intro u hu
      rw [List.reverse_cons, snoc]
      cases o with
      | should m =>
        have e : sinceSave (l.reverse ++ [.should m]) = m :: sinceSave l.reverse := by simp [sinceSave]
        rw [e]
        show HSt.c (X := Q.St) ((testCons th Q).calls l.reverse u) + m = _
        rw [ih u hu, List.sum_cons]
        omega
      | save c =>
        have e : sinceSave (l.reverse ++ [.save c]) = [] := by simp [sinceSave]
        rw [e]
        simp only [SaveCons.calls, testCons]
        split <;> rfl
  have h := key ops.reverse ⟨0, x, none⟩ rfl
  rw [List.reverse_reverse] at h
  show decide (HSt.c (X := Q.St) ((testCons th Q).calls ops ⟨0, x, none⟩) + n > th) = true ↔ _
  rw [h]
  simp only [decide_eq_true_eq]

section
variable {A : Archive} {D : Decomp} {F : Nat} {items : List CItem}

/-- Where the harness is between two runs. -/
def Between (A : Archive) (D : Decomp) (F : Nat) (items : List CItem) (k : CSt) (kept : Option ECkpt) : Prop :=
  ∃ hist, ZipAttempts A D F checkSink (cNew items) hist k ∧ ∀ c, kept = some c → c ∈ hist

theorem Between.choose {k : CSt} {kept : Option ECkpt} (h : Between A D F items k kept) :
    ∃ hist before, ZipAttempts A D F checkSink (cNew items) hist k ∧ ChooseCk hist kept before ∧ ∀ c, kept = some c → c ∈ before := by
  obtain ⟨hist, a, b⟩ := h
  cases kept with
  | none => exact ⟨hist, [], a, .fresh, fun _ h => by cases h⟩
  | some c =>
    obtain ⟨l, l', e⟩ := List.append_of_mem (b c rfl)
    exact ⟨hist, l ++ [c], a, .pick e, fun c' h => by injection h with h; subst h; simp⟩

theorem Between.next {k : CSt} {th : Int} {Q : Asker} {u : HSt Q.St} (h : Between A D F items k u.kept) {env : ZEnv} (hh : env.Honest A) :
    Between A D F items (zipResume A env D F checkSink (testCons th Q) u.kept k u).2.sink
      (HSt.kept (X := Q.St) (zipResume A env D F checkSink (testCons th Q) u.kept k u).2.cons) := by
  obtain ⟨hist, before, a, b, c⟩ := h.choose
  refine ⟨_, ZipAttempts.step env (testCons th Q) u hh a b (Or.inl rfl), ?_⟩
  intro c' hc'
  have hk := (asks_kept (zipResume_asks A env D F checkSink (testCons th Q) u.kept k u)).1
  rw [List.mem_append]
  rcases hk with g | ⟨c2, g1, g2⟩
  · rw [g] at hc'
    exact .inl (c c' hc')
  · rw [g1] at hc'
    injection hc' with hc'
    subst hc'
    exact .inr g2

/-- **C70** (a pass means something). Suppose the archive's names are distinct and its files are stored or deflated and not empty.
If a test passes — whatever its `shouldSave`, whatever read faults there are — then the sink has an item for each path of the
archive, and every item is what the archive says its path should be. -/
theorem C70_zip_pass (hwf : ZipWF A D F) (sink : CSt) (hnd : sink.items.Pairwise (fun a b => a.path ≠ b.path))
    (hdist : A.files.Pairwise (fun a b => a.name ≠ b.name)) (hfiles : ∀ z ∈ A.files, (zipFileEntry z).kind = .file → z.resumable ∧ (zipContent A D z).1 ≠ [])
    (envs : Nat → ZEnv) (hh : ∀ n, (envs n).Honest A) (th : Int) (Q : Asker) (x : Q.St)
    (hpass : harness (zipTestRun A envs D F th Q) sink x = .pass) :
    (∀ it ∈ sink.items, zipNode A D it.path = some it.node) ∧ ∀ z ∈ A.files, ∃ it ∈ sink.items, it.path = z.name := by
  have key : ∀ left (k : CSt) (u : HSt Q.St), Between A D F sink.items k u.kept → harnessLoop (zipTestRun A envs D F th Q) left k u = .pass →
      (∀ it ∈ sink.items, zipNode A D it.path = some it.node) ∧ ∀ z ∈ A.files, ∃ it ∈ sink.items, it.path = z.name := by
    intro left
    induction left with
    | zero => intro k u _ h; cases h
    | succ left ih =>
      intro k u hb h
      have hnext := hb.next (th := th) (Q := Q) (hh left)
      unfold harnessLoop at h
      simp only at h
      split at h
      · split at h
        · exact ih _ _ hnext h
        · cases h
      · rename_i res hres
        obtain ⟨hist, before, a, b, _⟩ := hb.choose
        split at h
        · rename_i hv
          refine ⟨(C67_zip_verdict hwf sink.items hnd hdist hfiles hist k a u.kept before b (envs left) (hh left) (testCons th Q) u res hres).1 hv, ?_⟩
          intro z hz
          obtain ⟨n, hn⟩ : ∃ n, zipNode A D z.name = some n := by
            have hmem : z ∈ A.files.filter fun zf => zf.name = z.name := List.mem_filter.2 ⟨hz, by simp⟩
            unfold zipNode
            rcases List.eq_nil_or_concat (A.files.filter fun zf => zf.name = z.name) with h0 | ⟨l, b, h0⟩
            · rw [h0] at hmem; cases hmem
            · rw [h0]; simp
          obtain ⟨it, h1, _⟩ := C67_zip_accepted hwf sink.items hist k a u.kept before b (envs left) (hh left) (testCons th Q) u res hres z.name n hn
          exact ⟨it, List.mem_of_find?_eq_some h1, by simpa using List.find?_some h1⟩
        · cases h
  exact key 129 _ _ ⟨[], .refl, fun c h => by cases h⟩ hpass

/-- **C70** (correct code passes). If nothing fails, the archive is well-formed, has distinct names, and its files are stored or
deflated and not empty, and the sink's items are what the archive says — then the test passes, unless it gives up because it was
stopped too often; which does not happen if the archive is small. -/
theorem C70_zip_correct_passes (hwf : ZipWF A D F) (hpl : ZipPlain A) (hs : ZipSound A D) (sink : CSt) (hnd : sink.items.Pairwise (fun a b => a.path ≠ b.path))
    (hdist : A.files.Pairwise (fun a b => a.name ≠ b.name)) (hfiles : ∀ z ∈ A.files, (zipFileEntry z).kind = .file → z.resumable ∧ (zipContent A D z).1 ≠ [])
    (hitems : ∀ it ∈ sink.items, zipNode A D it.path = some it.node) (hall : ∀ z ∈ A.files, ∃ it ∈ sink.items, it.path = z.name)
    (envs : Nat → ZEnv) (hh : ∀ n, (envs n).Honest A) (he : ∀ n, (envs n).Good A) (th : Int) (Q : Asker) (x : Q.St) :
    (harness (zipTestRun A envs D F th Q) sink x = .pass ∨ harness (zipTestRun A envs D F th Q) sink x = .tooMany) ∧
    (zipPositions A D ≤ 128 → harness (zipTestRun A envs D F th Q) sink x = .pass) := by
  have hcnt : checkSink.Counting := fun bs s h => by rw [checkFull.2 bs s h]; omega
  have hm : ∀ z ∈ A.files, ∃ it, sink.items.find? (·.path = z.name) = some it ∧ it.node = zipNodeOf A D z := by
    intro z hz
    obtain ⟨it, h1, h2⟩ := hall z hz
    refine ⟨it, by rw [← h2]; exact find_path hnd h1, ?_⟩
    have h3 := hitems it h1
    rw [h2] at h3
    unfold zipNode at h3
    have hmem : z ∈ A.files.filter fun zf => zf.name = z.name := List.mem_filter.2 ⟨hz, by simp⟩
    rcases List.eq_nil_or_concat (A.files.filter fun zf => zf.name = z.name) with h0 | ⟨l, b, h0⟩
    · rw [h0] at hmem; cases hmem
    · have hb : b ∈ A.files.filter fun zf => zf.name = z.name := by rw [h0]; simp
      obtain ⟨hb1, hb2⟩ := List.mem_filter.1 hb
      have hu := names_unique hdist z hz b hb1 (by simpa using hb2)
      subst hu
      rw [h0] at h3
      simp at h3
      exact h3.symm
  have key : ∀ left n (k : CSt) (u : HSt Q.St), left + n = 129 → Between A D F sink.items k u.kept → (u.kept = none ∧ n = 0 ∨ ∃ c, u.kept = some c ∧ ZipSaved A D F SinkM.Counting n c) →
      (harnessLoop (zipTestRun A envs D F th Q) left k u = .pass ∨ harnessLoop (zipTestRun A envs D F th Q) left k u = .tooMany) ∧
      (zipPositions A D ≤ 128 → harnessLoop (zipTestRun A envs D F th Q) left k u = .pass) := by
    intro left
    induction left with
    | zero =>
      intro n k u hn _ hk
      refine ⟨.inr rfl, fun hp => ?_⟩
      rcases hk with ⟨_, h⟩ | ⟨c, _, h⟩
      · omega
      · have := C39_bounded hwf hs.exact h
        omega
    | succ left ih =>
      intro n k u hn hb hk
      have hstart : ZipStart A D F SinkM.Counting u.kept := by
        intro c hc
        rcases hk with ⟨h, _⟩ | ⟨c', h1, h2⟩
        · rw [h] at hc; cases hc
        · rw [h1] at hc; injection hc with hc; subst hc; exact ⟨n, h2⟩
      obtain ⟨hist, before, a, b, _⟩ := hb.choose
      have hquiet := C67_zip_no_false_alarm hwf sink.items hm (fun z hz hf => (hfiles z hz hf).1) hist k a u.kept before b (envs left) (hh left) (testCons th Q) u
      have hnf : ¬ SinkFailed (zipResume A (envs left) D F checkSink (testCons th Q) u.kept k u).2.log := by
        rintro ⟨ev, h1, h2⟩
        exact h2 (hquiet ev h1)
      have hnext := hb.next (th := th) (Q := Q) (hh left)
      unfold harnessLoop
      simp only
      rcases C68_zip hwf hpl hs (envs left) (he left) checkSink checkFull.1 (testCons th Q) (testCons_good th Q) u.kept hstart k u with h | h | h
      · rw [show (zipTestRun A envs D F th Q left u.kept k u).1 = _ from h]
        simp only
        have := (C67_zip_verdict hwf sink.items hnd hdist hfiles hist k a u.kept before b (envs left) (hh left) (testCons th Q) u _ h).2 hitems
        rw [if_pos (show cValidate (zipTestRun A envs D F th Q left u.kept k u).2.1 = true from this)]
        exact ⟨.inl rfl, fun _ => rfl⟩
      · rw [show (zipTestRun A envs D F th Q left u.kept k u).1 = _ from h]
        simp only [Err.cause, if_true]
        obtain ⟨c, hc⟩ := (C38_stop_iff hwf (envs left) checkSink (testCons th Q) u.kept hstart k u).2.1 h
        have hkept := (asks_kept (zipResume_asks A (envs left) D F checkSink (testCons th Q) u.kept k u)).2 c hc
        refine ih (n + 1) _ _ (by omega) hnext (.inr ⟨c, hkept, ?_⟩)
        have hmem := List.mem_of_getLast? hc
        rcases hk with ⟨h1, h2⟩ | ⟨c0, h1, h2⟩
        · subst h2
          rw [h1] at hmem
          exact ZipSaved.first (envs left) checkSink (testCons th Q) k u hcnt hmem
        · rw [h1] at hmem
          exact ZipSaved.again (envs left) checkSink (testCons th Q) k u hcnt h2 hmem
      · exact absurd h hnf
  exact key 129 0 _ _ rfl ⟨[], .refl, fun c h => by cases h⟩ (.inl ⟨rfl, rfl⟩)

end

section
variable {Y : List Byte} {clean : Bool} {Ck : Ckpt → Nat → Prop} {F : Nat} {T : TarFmt} {items : List CItem}

/-- Where the harness is between two runs of a tar extractor. -/
def BetweenTar (Y : List Byte) (clean : Bool) (Ck : Ckpt → Nat → Prop) (F : Nat) (T : TarFmt) (items : List CItem) (k : CSt) (kept : Option ECkpt) : Prop :=
  ∃ hist, TarAttempts Y clean Ck F T checkSink (cNew items) hist k ∧ ∀ c, kept = some c → c ∈ hist

theorem BetweenTar.choose {k : CSt} {kept : Option ECkpt} (h : BetweenTar Y clean Ck F T items k kept) :
    ∃ hist before, TarAttempts Y clean Ck F T checkSink (cNew items) hist k ∧ ChooseCk hist kept before ∧ ∀ c, kept = some c → c ∈ before := by
  obtain ⟨hist, a, b⟩ := h
  cases kept with
  | none => exact ⟨hist, [], a, .fresh, fun _ h => by cases h⟩
  | some c =>
    obtain ⟨l, l', e⟩ := List.append_of_mem (b c rfl)
    exact ⟨hist, l ++ [c], a, .pick e, fun c' h => by injection h with h; subst h; simp⟩

theorem BetweenTar.next {k : CSt} {th : Int} {Q : Asker} {u : HSt Q.St} (h : BetweenTar Y clean Ck F T items k u.kept) (X : TarSrc Y clean Ck F) (hS : X.S.Conduit)
    (pr : Ckpt → Int × Int) : BetweenTar Y clean Ck F T items (tarRun X T pr checkSink (testCons th Q) u.kept k u).2.2.sink
      (HSt.kept (X := Q.St) (tarRun X T pr checkSink (testCons th Q) u.kept k u).2.2.cons) := by
  obtain ⟨hist, before, a, b, c⟩ := h.choose
  refine ⟨_, TarAttempts.step X pr (testCons th Q) u a b (Or.inl rfl), ?_⟩
  intro c' hc'
  have hk := (asks_kept (tarResume_asks (T := T) hS pr F checkSink (testCons th Q) u.kept X.src k u)).1
  rw [List.mem_append]
  rcases hk with g | ⟨c2, g1, g2⟩
  · exact .inl (c c' (g.symm.trans hc'))
  · have e : some c2 = some c' := g1.symm.trans hc'
    injection e with e
    subst e
    exact .inr g2

/-- **C70** (a pass means something), for tar streams: if the supported members have distinct names and the regular files are not
empty, and a test passes — whatever its `shouldSave`, whatever read faults there are —, then the sink has an item for each path of
the archive, and every item is what the archive says its path should be. -/
theorem C70_tar_pass (hT : T.Law) {all : List (THdr × List Byte)} (hall : TarHas T clean Y all)
    (sink : CSt) (hnd : sink.items.Pairwise (fun a b => a.path ≠ b.path)) (hdist : DistinctNames all) (hfiles : ∀ m ∈ all, m.1.typ = .reg → m.2 ≠ [])
    (X : TarSrc Y clean Ck F) (hS : X.S.Conduit) (pr : Ckpt → Int × Int) (srcs : Nat → X.S.St) (hsrc : ∀ n, X.L.Good (srcs n)) (th : Int) (Q : Asker) (x : Q.St)
    (hpass : harness (tarTestRun T pr F srcs th Q) sink x = .pass) :
    (∀ it ∈ sink.items, tarNode all it.path = some it.node) ∧ ∀ m ∈ all, m.1.typ ≠ .other → ∃ it ∈ sink.items, it.path = m.1.name := by
  have key : ∀ left (k : CSt) (u : HSt Q.St), BetweenTar Y clean Ck F T sink.items k u.kept →
      harnessLoop (tarTestRun T pr F srcs th Q) left k u = .pass →
      (∀ it ∈ sink.items, tarNode all it.path = some it.node) ∧ ∀ m ∈ all, m.1.typ ≠ .other → ∃ it ∈ sink.items, it.path = m.1.name := by
    intro left
    induction left with
    | zero => intro k u _ h; cases h
    | succ left ih =>
      intro k u hb h
      let X' : TarSrc Y clean Ck F := { X with src := srcs left, good := hsrc left }
      have hnext := hb.next (th := th) (Q := Q) X' hS pr
      unfold harnessLoop at h
      simp only at h
      split at h
      · split at h
        · exact ih _ _ hnext h
        · cases h
      · rename_i res hres
        obtain ⟨hist, before, a, b, _⟩ := hb.choose
        split at h
        · rename_i hv
          refine ⟨(C67_tar_verdict hT hall sink.items hnd hdist hfiles hist k a u.kept before b X' pr (testCons th Q) u res hres).1 hv, ?_⟩
          intro m hm ht
          obtain ⟨it, h1, _⟩ := C67_tar_accepted hT hall sink.items hist k a u.kept before b X' pr (testCons th Q) u res hres m.1.name _ (hdist.node hm ht)
          exact ⟨it, List.mem_of_find?_eq_some h1, by simpa using List.find?_some h1⟩
        · cases h
  exact key 129 _ _ ⟨[], .refl, fun c h => by cases h⟩ hpass

theorem TarSaved.loud {q : Prop} {n : Nat} {c : ECkpt} (h : TarSaved Y clean Ck F T q n c) : TarSaved Y clean Ck F T False n c := by
  induction h with
  | first X pr K V k u _ hm => exact .first X pr K V k u (fun h => h.elim) hm
  | again X pr K V k u _ _ hm ih => exact .again X pr K V k u (fun h => h.elim) ih hm

/-- **C70** (correct code passes), for tar streams. If nothing fails, the source has no save pending when a run starts, the
supported members have distinct names, the regular files are not empty, and the sink's items are what the archive says — then the
test passes, unless it gives up because it was stopped too often; which does not happen if the archive is small. -/
theorem C70_tar_correct_passes (hT : T.Law) (hX : T.Exact) {all : List (THdr × List Byte)} (hall : TarHas T true Y all) (hF : Y.length + 3 ≤ F)
    (sink : CSt) (hnd : sink.items.Pairwise (fun a b => a.path ≠ b.path)) (hdist : DistinctNames all) (hfiles : ∀ m ∈ all, m.1.typ = .reg → m.2 ≠ [])
    (hitems : ∀ it ∈ sink.items, tarNode all it.path = some it.node) (hcov : ∀ m ∈ all, m.1.typ ≠ .other → ∃ it ∈ sink.items, it.path = m.1.name)
    (X : TarSrc Y true Ck F) (hh : X.Healthy) (hS : X.S.Conduit) (hi : X.S.Indifferent) (pr : Ckpt → Int × Int) (srcs : Nat → X.S.St) (hsrc : ∀ n, X.L.Good (srcs n))
    (hq : ∀ n, X.L.Quiet (srcs n)) (th : Int) (Q : Asker) (x : Q.St) :
    (harness (tarTestRun T pr F srcs th Q) sink x = .pass ∨ harness (tarTestRun T pr F srcs th Q) sink x = .tooMany) ∧
    (Y.length ≤ 128 → harness (tarTestRun T pr F srcs th Q) sink x = .pass) := by
  have hm : ∀ m ∈ all, m.1.typ ≠ .other → ∃ it, sink.items.find? (·.path = m.1.name) = some it ∧ it.node = tarNodeOf m := by
    intro m hm ht
    obtain ⟨it, h1, h2⟩ := hcov m hm ht
    refine ⟨it, by rw [← h2]; exact find_path hnd h1, ?_⟩
    have h3 := hitems it h1
    rw [h2, hdist.node hm ht] at h3
    exact (Option.some.inj h3).symm
  have key : ∀ left n (k : CSt) (u : HSt Q.St), left + n = 129 → BetweenTar Y true Ck F T sink.items k u.kept →
      (u.kept = none ∧ n = 0 ∨ ∃ c, u.kept = some c ∧ TarSaved Y true Ck F T True n c) →
      (harnessLoop (tarTestRun T pr F srcs th Q) left k u = .pass ∨ harnessLoop (tarTestRun T pr F srcs th Q) left k u = .tooMany) ∧
      (Y.length ≤ 128 → harnessLoop (tarTestRun T pr F srcs th Q) left k u = .pass) := by
    intro left
    induction left with
    | zero =>
      intro n k u hn _ hk
      refine ⟨.inr rfl, fun hp => ?_⟩
      rcases hk with ⟨_, h⟩ | ⟨c, _, h⟩
      · omega
      · have := C47_bounded_partial hT h
        omega
    | succ left ih =>
      intro n k u hn hb hk
      let X' : TarSrc Y true Ck F := { X with src := srcs left, good := hsrc left }
      have hstart : TarCanStart Y true Ck F T u.kept := by
        intro c hc
        rcases hk with ⟨h, _⟩ | ⟨c', h1, h2⟩
        · rw [h] at hc; cases hc
        · rw [h1] at hc; injection hc with hc; subst hc; exact ⟨n, h2.loud⟩
      obtain ⟨hist, before, a, b, _⟩ := hb.choose
      have hquiet := C67_tar_no_false_alarm hT hall sink.items hm hist k a u.kept before b X' pr (testCons th Q) u
      have hnf : ¬ SinkFailed (tarRun X' T pr checkSink (testCons th Q) u.kept k u).2.2.log := by
        rintro ⟨ev, h1, h2⟩
        exact h2 (hquiet ev h1)
      have hnext := hb.next (th := th) (Q := Q) X' hS pr
      unfold harnessLoop
      simp only
      rcases C68_tar hT hX all hall hF X' hh hi pr checkSink checkFull.1 (testCons th Q) (testCons_good th Q) u.kept hstart k u with ⟨res, h⟩ | h | h
      · rw [show (tarTestRun T pr F srcs th Q left u.kept k u).1 = _ from h]
        simp only
        have := (C67_tar_verdict hT hall sink.items hnd hdist hfiles hist k a u.kept before b X' pr (testCons th Q) u _ h).2 hitems
        rw [if_pos (show cValidate (tarTestRun T pr F srcs th Q left u.kept k u).2.1 = true from this)]
        exact ⟨.inl rfl, fun _ => rfl⟩
      · rw [show (tarTestRun T pr F srcs th Q left u.kept k u).1 = _ from h]
        simp only [Err.cause, if_true]
        obtain ⟨c, hc⟩ := (C38_tar_stop_iff hT X' pr checkSink (testCons th Q) u.kept hstart k u).2.1 h
        have hkept := (asks_kept (tarResume_asks (T := T) hS pr F checkSink (testCons th Q) u.kept (srcs left) k u)).2 c hc
        refine ih (n + 1) _ _ (by omega) hnext (.inr ⟨c, hkept, ?_⟩)
        have hmem := List.mem_of_getLast? hc
        rcases hk with ⟨h1, h2⟩ | ⟨c0, h1, h2⟩
        · subst h2
          rw [h1] at hmem
          exact TarSaved.first X' pr checkSink (testCons th Q) k u (fun _ => hq left) hmem
        · rw [h1] at hmem
          exact TarSaved.again X' pr checkSink (testCons th Q) k u (fun _ => hq left) h2 hmem
      · exact absurd h hnf
  exact key 129 0 _ _ rfl ⟨[], .refl, fun c h => by cases h⟩ (.inl ⟨rfl, rfl⟩)

end

/-- **C65** (the save consumer). The checkpoints a zip extraction logs as saved are those it called `Save` with, in that order, and
the answers logged are those the consumer gave; apart from that it only calls `ShouldSave`. -/
theorem C65_zip_consumer (A : Archive) (env : ZEnv) (D : Decomp) (F : Nat) (K : SinkM) (V : SaveCons) (ck : Option ECkpt) (k : K.St) (u : V.St) :
    Asks V u (saves (zipResume A env D F K V ck k u).2.log) (zipResume A env D F K V ck k u).2.cons := zipResume_asks A env D F K V ck k u

/-- **C65** (the save consumer), for tar. -/
theorem C65_tar_consumer {S : SourceM} (hS : S.Conduit) (T : TarFmt) (pr : Ckpt → Int × Int) (F : Nat) (K : SinkM) (V : SaveCons) (ck : Option ECkpt) (src : S.St)
    (k : K.St) (u : V.St) :
    Asks V u (saves (tarResume S T pr F K V ck src k u).2.2.log) (tarResume S T pr F K V ck src k u).2.2.cons := tarResume_asks hS pr F K V ck src k u

/-! ## Non-vacuity -/

/-- A `shouldSave` that always says yes, and a consumer that asks for a checkpoint after every chunk. -/
def yesAsker : Asker := ⟨Unit, fun u => (true, u)⟩

theorem oracle_good : toyEnv.Good oracleArchive where
  noFault := toy_good.noFault
  lazy := toy_good.lazy
  dataOff := toy_good.dataOff
  opens i h := toy_good.opens i (by simp [oracleArchive, toyArchive] at h ⊢; omega)

theorem oracle_sound : ZipSound oracleArchive (toy false false) where
  clean := by decide
  exact := toy_exact
  saveOK _ _ := rfl

theorem oracle_items : ∀ it ∈ oracleItems, zipNode oracleArchive (toy false false) it.path = some it.node := by
  intro it hit
  simp only [oracleItems, List.mem_cons, List.not_mem_nil, or_false] at hit
  rcases hit with rfl | rfl | rfl | rfl <;> rfl

/-- A test that is stopped at every opportunity passes. -/
theorem harness_passes : harness (zipTestRun oracleArchive (fun _ => toyEnv) (toy false false) 100 0 yesAsker) (cNew oracleItems) () = .pass :=
  (C70_zip_correct_passes oracle_wf (by unfold ZipPlain; decide) oracle_sound (cNew oracleItems) (by decide) oracle_distinct oracle_files oracle_items (by decide)
    (fun _ => toyEnv) (fun _ => oracle_honest) (fun _ => oracle_good) 0 yesAsker ()).2 (by decide)

example : ∀ it ∈ oracleItems, zipNode oracleArchive (toy false false) it.path = some it.node :=
  (C70_zip_pass oracle_wf (cNew oracleItems) (by decide) oracle_distinct oracle_files (fun _ => toyEnv) (fun _ => oracle_honest) 0 yesAsker () harness_passes).1

/-- It does stop: with no resumes allowed, it is given up. -/
example : harnessLoop (zipTestRun oracleArchive (fun _ => toyEnv) (toy false false) 100 0 yesAsker) 2 (cNew oracleItems) ⟨0, (), none⟩ = .tooMany := by rfl

/-- A wrong expectation is found out. -/
example : harness (zipTestRun oracleArchive (fun _ => toyEnv) (toy false false) 100 0 yesAsker) (cNew oracleLonger) () = .invalid := by rfl

def tarItems : List CItem := [⟨[100], .dir, [], []⟩, ⟨[97], .file, [], [10, 20, 30]⟩, ⟨[108], .symlink, [109], []⟩, ⟨[98], .file, [], [5, 6]⟩]

theorem toy_distinct : DistinctNames toyMembers := by unfold DistinctNames; decide

theorem toy_files : ∀ m ∈ toyMembers, m.1.typ = .reg → m.2 ≠ [] := by decide

theorem tar_items : ∀ it ∈ tarItems, tarNode toyMembers it.path = some it.node := by decide

/-- A test that is stopped at every opportunity passes. -/
theorem tar_passes : harness (tarTestRun (S := seekM) (toyTar true) (fun _ => (0, 1)) 100 (fun _ => (plainSrc toyStream 100 (by decide)).src) 0 yesAsker) (cNew tarItems) () = .pass :=
  (C70_tar_correct_passes (toyTar_law true) (toyTar_exact true) toy_has (by decide) (cNew tarItems) (by decide) toy_distinct toy_files tar_items (by decide)
    (plainSrc toyStream 100 (by decide)) ⟨fun _ => rfl, trivial⟩ seek_conduit seek_indifferent _ _ (fun _ => (plainSrc toyStream 100 (by decide)).good) (fun _ => rfl) 0 yesAsker ()).2 (by decide)

theorem tar_harness (items : List CItem) (hnd : items.Pairwise (fun a b => a.path ≠ b.path))
    (hpass : harness (tarTestRun (S := seekM) (toyTar true) (fun _ => (0, 1)) 100 (fun _ => (plainSrc toyStream 100 (by decide)).src) 0 yesAsker) (cNew items) () = .pass) :
    ∀ it ∈ items, tarNode toyMembers it.path = some it.node :=
  (C70_tar_pass (toyTar_law true) toy_has (cNew items) hnd toy_distinct toy_files (plainSrc toyStream 100 (by decide)) seek_conduit _ _
    (fun _ => (plainSrc toyStream 100 (by decide)).good) 0 yesAsker () hpass).1

example : ∀ it ∈ tarItems, tarNode toyMembers it.path = some it.node := tar_harness tarItems (by decide) tar_passes

/-- A longer file is expected: the test says no. -/
example : harness (tarTestRun (S := seekM) (toyTar true) (fun _ => (0, 1)) 100 (fun _ => (plainSrc toyStream 100 (by decide)).src) 0 yesAsker)
    (cNew [⟨[100], .dir, [], []⟩, ⟨[97], .file, [], [10, 20, 30]⟩, ⟨[108], .symlink, [109], []⟩, ⟨[98], .file, [], [5, 6, 7]⟩]) () = .invalid := by rfl

/-- A tar extraction into a checking sink. -/
def tarCheck (ck : Option ECkpt) (k : CSt) (u : List (Except Err Action)) : Except Err (List Entry) × SeekSt × XW checkSink listCons :=
  tarRun (plainSrc toyStream 100 (by decide)) (toyTar true) (fun _ => (0, 1)) checkSink listCons ck k u

theorem tarCheck_step (items : List CItem) (u : List (Except Err Action)) :
    TarAttempts (plainGeo toyStream).stream true (Seek.CkS (plainGeo toyStream)) 100 (toyTar true) checkSink (cNew items)
      ([] ++ savedCks (tarCheck none (cNew items) u).2.2.log) (tarCheck none (cNew items) u).2.2.sink :=
  TarAttempts.step (plainSrc toyStream 100 (by decide)) (fun _ => (0, 1)) listCons u .refl .fresh (Or.inl rfl)

/-- Stopped at the first checkpoint saved. -/
def tarCheck1 (items : List CItem) : Except Err (List Entry) × SeekSt × XW checkSink listCons := tarCheck none (cNew items) [.ok .stop]

def tarCheckCk (items : List CItem) : ECkpt := (lastSave (tarCheck1 items).2.2.log).getD toyCk1

def tarCheck2 (items : List CItem) : Except Err (List Entry) × SeekSt × XW checkSink listCons := tarCheck (some (tarCheckCk items)) (tarCheck1 items).2.2.sink []

/-- With a longer file expected. -/
def tarLonger : List CItem := [⟨[100], .dir, [], []⟩, ⟨[97], .file, [], [10, 20, 30, 40]⟩, ⟨[108], .symlink, [109], []⟩, ⟨[98], .file, [], [5, 6]⟩]

theorem tarCheck_verdict (items : List CItem) (hnd : items.Pairwise (fun a b => a.path ≠ b.path)) (u : List (Except Err Action)) (c : ECkpt)
    (hc : savedCks (tarCheck none (cNew items) u).2.2.log = [c]) (res : List Entry) (hok : (tarCheck (some c) (tarCheck none (cNew items) u).2.2.sink []).1 = .ok res) :
    cValidate (tarCheck (some c) (tarCheck none (cNew items) u).2.2.sink []).2.2.sink = true ↔ ∀ it ∈ items, tarNode toyMembers it.path = some it.node :=
  C67_tar_verdict (toyTar_law true) toy_has items hnd toy_distinct toy_files _ _ (tarCheck_step items u) _ _ (oracle_pick hc) _ _ listCons [] res hok

theorem tarCheck_quiet (items : List CItem) (u : List (Except Err Action)) (c : ECkpt) (hc : savedCks (tarCheck none (cNew items) u).2.2.log = [c])
    (hm : ∀ m ∈ toyMembers, m.1.typ ≠ .other → ∃ it, items.find? (·.path = m.1.name) = some it ∧ it.node = tarNodeOf m) :
    ∀ ev ∈ (tarCheck (some c) (tarCheck none (cNew items) u).2.2.sink []).2.2.log, ev.sinkError = none :=
  C67_tar_no_false_alarm (toyTar_law true) toy_has items hm _ _ (tarCheck_step items u) _ _ (oracle_pick hc) _ _ listCons []

theorem tarCheck2_verdict (items : List CItem) (hnd : items.Pairwise (fun a b => a.path ≠ b.path)) (hc : savedCks (tarCheck1 items).2.2.log = [tarCheckCk items])
    (res : List Entry) (hok : (tarCheck2 items).1 = .ok res) :
    cValidate (tarCheck2 items).2.2.sink = true ↔ ∀ it ∈ items, tarNode toyMembers it.path = some it.node :=
  by unfold tarCheck2 tarCheck1 at *; exact tarCheck_verdict items hnd _ _ hc res hok

theorem tarCheck2_quiet (items : List CItem) (hc : savedCks (tarCheck1 items).2.2.log = [tarCheckCk items])
    (hm : ∀ m ∈ toyMembers, m.1.typ ≠ .other → ∃ it, items.find? (·.path = m.1.name) = some it ∧ it.node = tarNodeOf m) :
    ∀ ev ∈ (tarCheck2 items).2.2.log, ev.sinkError = none :=
  by unfold tarCheck2 tarCheck1 at *; exact tarCheck_quiet items _ _ hc hm

theorem tarCheck_cks : savedCks (tarCheck1 tarItems).2.2.log = [tarCheckCk tarItems] := by rfl
theorem tarCheck_cks' : savedCks (tarCheck1 tarLonger).2.2.log = [tarCheckCk tarLonger] := by rfl
theorem tarCheck2_ok : (tarCheck2 tarItems).1 = .ok [⟨[97], .file, 0o644, 0, 3, 3, []⟩, ⟨[98], .file, 0o644, 0, 2, 2, []⟩] := by rfl
theorem tarCheck2_ok' : (tarCheck2 tarLonger).1 = .ok [⟨[97], .file, 0o644, 0, 3, 3, []⟩, ⟨[98], .file, 0o644, 0, 2, 2, []⟩] := by rfl

example : (tarCheck1 tarItems).1 = .error .stop := by rfl

/-- The verdict after the resumed run. -/
example : cValidate (tarCheck2 tarItems).2.2.sink = true := (tarCheck2_verdict tarItems (by decide) tarCheck_cks _ tarCheck2_ok).2 tar_items

example : cValidate (tarCheck2 tarLonger).2.2.sink ≠ true :=
  fun h => absurd ((tarCheck2_verdict tarLonger (by decide) tarCheck_cks' _ tarCheck2_ok').1 h) (by decide)

example : ∀ ev ∈ (tarCheck2 tarItems).2.2.log, ev.sinkError = none := tarCheck2_quiet tarItems tarCheck_cks (by decide)

end Savior
