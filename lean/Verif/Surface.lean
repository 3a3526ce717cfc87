import Verif.Conduits
import Verif.Zip
import Verif.Tar
/-!
# Failures are reported
-/

namespace Savior

section
variable {K : SinkM} {V : SaveCons}

/-- Failing calls that must be reported; with `strict`, also those made while saving. -/
def Bad (strict : Bool) (ev : Ev) : Prop := ev.failed ≠ none ∧ (strict = true ∨ ev.saving = false)

/-- No such call so far. -/
def NoBad (strict : Bool) (log : List Ev) : Prop := ∀ ev ∈ log, ¬ Bad strict ev

/-- The error is that of such a call. -/
def Due (strict : Bool) (log : List Ev) (e : Err) : Prop := ∃ ev ∈ log, Bad strict ev ∧ ∃ x, ev.failed = some x ∧ e.cause = x.cause

/-- Either nothing of the sort happened, or it is reported. -/
def Tells (strict : Bool) (r : Option Err) (log : List Ev) : Prop := NoBad strict log ∨ ∃ e, r = some e ∧ Due strict log e

variable {strict : Bool}

theorem NoBad.snoc {log : List Ev} {ev : Ev} (h : NoBad strict log) (he : ¬ Bad strict ev) : NoBad strict (log ++ [ev]) := by
  intro x hx
  rcases List.mem_append.mp hx with hx | hx
  · exact h x hx
  · rw [List.mem_singleton.mp hx]; exact he

theorem Due.snoc {log : List Ev} {e : Err} (ev : Ev) (h : Due strict log e) : Due strict (log ++ [ev]) e := by
  obtain ⟨x, a, b⟩ := h
  exact ⟨x, List.mem_append_left _ a, b⟩

theorem due_last {log : List Ev} {ev : Ev} {x : Err} (hb : Bad strict ev) (hx : ev.failed = some x) : Due strict (log ++ [ev]) x :=
  ⟨ev, by simp, hb, x, hx, rfl⟩

theorem Due.wrap {log : List Ev} {e : Err} (h : Due strict log e) : Due strict log (.wrapped e) := by
  obtain ⟨x, a, b, y, c, d⟩ := h
  exact ⟨x, a, b, y, c, d⟩

theorem Tells.wrap {log : List Ev} {r : Option Err} (h : Tells strict r log) : Tells strict (r.map .wrapped) log := by
  rcases h with h | ⟨e, rfl, h⟩
  · exact Or.inl h
  · exact Or.inr ⟨_, rfl, h.wrap⟩

/-- Likewise, and the error is a wrapped one (so not `ErrStop`). -/
def TellsW (strict : Bool) (r : Option Err) (log : List Ev) : Prop := NoBad strict log ∨ ∃ e, r = some (.wrapped e) ∧ Due strict log (.wrapped e)

theorem Tells.wrapW {log : List Ev} {r : Option Err} (h : Tells strict r log) : TellsW strict (r.map .wrapped) log := by
  rcases h with h | ⟨e, rfl, h⟩
  · exact Or.inl h
  · exact Or.inr ⟨_, rfl, h.wrap⟩

/-- A call that reports its own error. -/
theorem tells_call {log : List Ev} {ev : Ev} {r : Option Err} (h : NoBad strict log) (hr : ev.failed = r) (hs : ev.saving = false) :
    Tells strict r (log ++ [ev]) ∧ (r = none → NoBad strict (log ++ [ev])) := by
  have hn : r = none → NoBad strict (log ++ [ev]) := fun h1 => h.snoc (fun hb => hb.1 (by rw [hr, h1]))
  refine ⟨?_, hn⟩
  cases hr' : r with
  | none => exact Or.inl (hn hr')
  | some x => exact Or.inr ⟨x, rfl, due_last ⟨by rw [hr, hr']; simp, Or.inr hs⟩ (by rw [hr, hr'])⟩

/-- The copier reports what reading and writing report. -/
theorem copyLoop_tells {W : Type} (io : CopyIO W) (N : W → Prop) (B : Err → W → Prop)
    (hread : ∀ w, N w → N (io.read w).2 ∨ ∃ e, (io.read w).1.2 = some e ∧ e ≠ .eof ∧ B e (io.read w).2)
    (hwrite : ∀ bs w, N w → ((io.write bs w).1.2 = none → N (io.write bs w).2) ∧ ∀ e, (io.write bs w).1.2 = some e → B e (io.write bs w).2)
    (hwriteB : ∀ bs w e, B e w → ((io.write bs w).1.2 = none → B e (io.write bs w).2) ∧ ∀ e', (io.write bs w).1.2 = some e' → B e' (io.write bs w).2)
    (hemit : ∀ w, N w → N (io.emit w)) (hemitB : ∀ w e, B e w → B e (io.emit w))
    (hshould : ∀ n w, N w → N (io.shouldSave n w).2) (hwant : ∀ w, N w → N (io.wantSave w)) (hwrap : ∀ e w, B e w → B (.wrapped e) w) :
    ∀ fuel counter w, N w → N (copyLoop io fuel counter w).2.1 ∨ ∃ e, (copyLoop io fuel counter w).1 = some e ∧ B e (copyLoop io fuel counter w).2.1 := by
  intro fuel
  induction fuel with
  | zero => intro counter w h; exact Or.inl h
  | succ fuel ih =>
    intro counter w h
    unfold copyLoop
    split
    · exact Or.inl h
    · simp only []
      have hr := hread w h
      generalize io.read w = r at *
      have hm : (N r.2 → ((io.write r.1.1 r.2).1.2 = none → N (io.write r.1.1 r.2).2) ∧ ∀ e, (io.write r.1.1 r.2).1.2 = some e → B e (io.write r.1.1 r.2).2) := hwrite _ _
      have hmB := hwriteB r.1.1 r.2
      generalize io.write r.1.1 r.2 = m at *
      cases hme : m.1.2 with
      | some x =>
        refine Or.inr ⟨_, rfl, hwrap _ _ ?_⟩
        rcases hr with hr | ⟨e, _, _, hb⟩
        · exact (hm hr).2 x hme
        · exact (hmB e hb).2 x hme
      | none =>
        simp only []
        rcases hr with hr | ⟨e, he, hne, hb⟩
        · have hm' := (hm hr).1 hme
          have h1 : N (if decide (progressThreshold < counter + m.1.1) = true then io.emit m.2 else m.2) := by
            split
            · exact hemit _ hm'
            · exact hm'
          generalize (if decide (progressThreshold < counter + m.1.1) = true then io.emit m.2 else m.2) = w1 at *
          cases hre : r.1.2 with
          | some x => exact Or.inl h1
          | none =>
            refine ih _ _ ?_
            have h2 := hshould r.1.1.length w1 h1
            split
            · exact hwant _ h2
            · exact h2
        · have hm' := (hmB e hb).1 hme
          have h1 : B e (if decide (progressThreshold < counter + m.1.1) = true then io.emit m.2 else m.2) := by
            split
            · exact hemitB _ _ hm'
            · exact hm'
          rw [he]
          simp only [if_neg hne]
          exact Or.inr ⟨_, rfl, hwrap _ _ h1⟩

theorem write_tells {w : XW K V} (bs : List Byte) :
    (NoBad strict w.log → ((w.write bs).1.2 = none → NoBad strict (w.write bs).2.log) ∧ ∀ e, (w.write bs).1.2 = some e → Due strict (w.write bs).2.log e) ∧
    ∀ e, Due strict w.log e → ((w.write bs).1.2 = none → Due strict (w.write bs).2.log e) ∧ ∀ e', (w.write bs).1.2 = some e' → Due strict (w.write bs).2.log e' := by
  have hl : (w.write bs).2.log = w.log ++ [.write bs (K.write bs w.sink).1.1 (K.write bs w.sink).1.2.2] := rfl
  have hr : (w.write bs).1.2 = (K.write bs w.sink).1.2.2 := rfl
  rw [hl, hr]
  generalize (K.write bs w.sink).1 = q
  have hfail : ∀ e, q.2.2 = some e → Due strict (w.log ++ [.write bs q.1 q.2.2]) e := by
    intro e he
    exact due_last ⟨by simp [Ev.failed, he], Or.inr rfl⟩ (by simp [Ev.failed, he])
  refine ⟨fun h => ⟨fun h0 => h.snoc (fun hb => hb.1 (by simp [Ev.failed, h0])), hfail⟩, fun e h => ⟨fun _ => h.snoc _, hfail⟩⟩

/-- A read during which the save callback may fail. -/
theorem read_tells {C : Type} {S : SourceM} (log : C → List Ev) (hS : S.Conduit) (hR : strict = true → S.Reports) (cb : Callback C)
    (hcb : ∀ ck c, NoBad strict (log c) → (strict = true → (cb ck c).2 = none → NoBad strict (log (cb ck c).1)) ∧
      (strict = false → NoBad strict (log (cb ck c).1)) ∧ (∀ e, (cb ck c).2 = some e → e ≠ .eof ∧ (NoBad strict (log (cb ck c).1) ∨ Due strict (log (cb ck c).1) e)))
    (n : Nat) (s : S.St) (c : C) (h : NoBad strict (log c)) :
    NoBad strict (log (S.read cb n s c).2.2) ∨ ∃ e, (S.read cb n s c).1.2 = some e ∧ e ≠ .eof ∧ Due strict (log (S.read cb n s c).2.2) e := by
  cases strict with
  | false =>
    rcases hS C cb n s c with a | ⟨ck, a⟩
    · rw [a]; exact Or.inl h
    · rw [a]; exact Or.inl ((hcb ck c h).2.1 rfl)
  | true =>
    rcases hR rfl C cb n s c with a | ⟨ck, a, b⟩
    · rw [a]; exact Or.inl h
    · rw [a, b]
      cases hc : (cb ck c).2 with
      | none => exact Or.inl ((hcb ck c h).1 rfl hc)
      | some e =>
        obtain ⟨h1, h2⟩ := (hcb ck c h).2.2 e hc
        rcases h2 with h2 | h2
        · exact Or.inl h2
        · exact Or.inr ⟨e, rfl, h1, h2⟩

/-! ## zip -/

theorem zipOnSave_tells (total : Int) (ck : Ckpt) (w : XW K V) (h : NoBad strict w.log) :
    (strict = true → (zipOnSave total ck w).2 = none → NoBad strict (zipOnSave total ck w).1.log) ∧
    (strict = false → NoBad strict (zipOnSave total ck w).1.log) ∧
    (∀ e, (zipOnSave total ck w).2 = some e → e ≠ .eof ∧ (NoBad strict (zipOnSave total ck w).1.log ∨ Due strict (zipOnSave total ck w).1.log e)) := by
  have hs : ∀ ev : Ev, ev.saving = true → strict = false → ¬ Bad strict ev := by
    rintro ev h1 h2 ⟨_, h3 | h3⟩
    · rw [h2] at h3; cases h3
    · rw [h1] at h3; cases h3
  unfold zipOnSave
  simp only []
  generalize hq : (K.sync _) = q
  cases hq1 : q.1 with
  | some x =>
    refine ⟨fun _ h => by simp at h, fun h1 => h.snoc (hs _ rfl h1), ?_⟩
    intro e he
    simp only [Option.some.injEq] at he
    subst he
    refine ⟨by simp, ?_⟩
    cases strict with
    | false => exact Or.inl (h.snoc (hs _ rfl rfl))
    | true => exact Or.inr (due_last (x := x) ⟨by simp [Ev.failed], Or.inl rfl⟩ rfl).wrap
  | none =>
    have h1 : NoBad strict (w.log ++ [.sync none]) := h.snoc (fun hb => hb.1 rfl)
    simp only []
    have hd : ∀ (ck : ECkpt) (x : Err), NoBad strict ((w.log ++ [.sync none]) ++ [.save ck (.error x)]) ∨
        Due strict ((w.log ++ [.sync none]) ++ [.save ck (.error x)]) (.wrapped x) := by
      intro ck x
      cases strict with
      | false => exact Or.inl (h1.snoc (hs _ rfl rfl))
      | true => exact Or.inr (due_last (x := x) ⟨by simp [Ev.failed], Or.inl rfl⟩ rfl).wrap
    have h2 : ∀ (ck : ECkpt) (b : Action), NoBad strict ((w.log ++ [.sync none]) ++ [.save ck (.ok b)]) := fun ck b => h1.snoc (fun hb => hb.1 rfl)
    split
    · rename_i x hx
      rw [hx]
      refine ⟨fun _ h => by simp at h, fun h2 => h1.snoc (hs _ rfl h2), ?_⟩
      intro e he
      simp only [Option.some.injEq] at he
      subst he
      exact ⟨by simp, hd _ _⟩
    · rename_i hx
      rw [hx]
      exact ⟨fun _ _ => h2 _ _, fun _ => h2 _ _, fun e he => by simp at he⟩
    · rename_i hx
      rw [hx]
      exact ⟨fun _ _ => h2 _ _, fun _ => h2 _ _, fun e he => by simp at he⟩

theorem zipOpen_tells (w : XW K V) (h : NoBad strict w.log) :
    Tells strict (zipOpen w).1 (zipOpen w).2.log ∧ ((zipOpen w).1 = none → NoBad strict (zipOpen w).2.log) := by
  unfold zipOpen
  split
  · exact ⟨Or.inl h, fun _ => h⟩
  · exact tells_call h rfl rfl

theorem zipRunFile_tells (S : SourceM) (hS : S.Conduit) (hR : strict = true → S.Reports) (F : Nat) (total : Int) (src : S.St) (w : XW K V)
    (h : NoBad strict w.log) : Tells strict (zipRunFile S F total src w).1 (zipRunFile S F total src w).2.log := by
  unfold zipRunFile
  simp only []
  split
  · exact Or.inl h
  · split
    · exact Or.inl h
    · obtain ⟨g1, g2⟩ := zipOpen_tells w h
      cases hg : (zipOpen w).1 with
      | some x =>
        rw [hg] at g1
        exact g1.wrap
      | none =>
        simp only []
        refine Tells.wrap ?_
        exact copyLoop_tells (zipIO S total) (fun q => NoBad strict q.2.log) (fun e q => Due strict q.2.log e)
          (fun q hq => read_tells (fun c => c.log) hS hR (zipOnSave total) (zipOnSave_tells total) 32768 q.1 q.2 hq)
          (fun bs q => (write_tells bs).1) (fun bs q => (write_tells bs).2)
          (fun q hq => hq.snoc (fun hb => hb.1 rfl)) (fun q e hq => hq.snoc _)
          (fun n q hq => hq) (fun q hq => hq) (fun e q hq => hq.wrap) F 0 _ (g2 hg)

theorem ioCopy_tells : ∀ (chunks : List (List Byte)) (e : Option Err) (w : XW K V), NoBad strict w.log →
    Tells strict (ioCopy chunks e w).1 (ioCopy chunks e w).2.log := by
  intro chunks
  induction chunks with
  | nil => intro e w h; exact Or.inl h
  | cons c cs ih =>
    intro e w h
    unfold ioCopy
    split
    · exact ih e w h
    · simp only []
      obtain ⟨w1, w2⟩ := (write_tells (strict := strict) (w := w) c).1 h
      cases hw : (w.write c).1.2 with
      | some x => exact Or.inr ⟨x, rfl, w2 x hw⟩
      | none =>
        simp only []
        split
        · exact Or.inl (w1 hw)
        · exact ih e _ (w1 hw)

theorem zipEntry_tells (A : Archive) (env : ZEnv) (D : Decomp) (F : Nat) (total : Int) (i : Nat) (zf : ZFile)
    (w : XW K V) (hst : strict = true → zf.method = .store → w.ck.entry = none ∧ (zipFileEntry zf).kind ≠ .file)
    (h : NoBad strict w.log) : Tells strict (zipEntry A env D F total i zf w).1 (zipEntry A env D F total i zf w).2.log := by
  have key : ∀ (r : Option Err × XW K V), Tells strict r.1 r.2.log → Tells strict (match r.1 with
      | some e => (some e, r.2)
      | none => (none, { r.2 with done := wrap64 (r.2.done + zf.usize) })).1 (match r.1 with
      | some e => (some e, r.2)
      | none => (none, { r.2 with done := wrap64 (r.2.done + zf.usize) })).2.log := by
    rintro ⟨r1, r2⟩ hr
    cases r1 <;> exact hr
  unfold zipEntry
  simp only []
  split
  · exact Or.inl h
  · refine key _ ?_
    split
    · exact (tells_call h rfl rfl).1.wrap
    · split
      · exact Or.inl h
      · exact Or.inl h
      · exact (tells_call h rfl rfl).1.wrap
    · rename_i hkind
      unfold zipFile
      split
      · rename_i hm
        split
        · exact Or.inl h
        · exact zipRunFile_tells seekM seek_conduit (fun hs => by
            obtain ⟨h1, h2⟩ := hst hs hm
            rw [h1] at hkind
            exact absurd hkind h2) F total _ _ h
      · split
        · exact Or.inl h
        · exact zipRunFile_tells _ (wrap_reports _ _ _ _).conduit (fun _ => wrap_reports _ _ _ _) F total _ _ h
      · unfold zipCopyFile
        simp only []
        split
        · exact Or.inl h
        · rename_i chunks e _
          obtain ⟨g1, g2⟩ := zipOpen_tells (strict := strict) (K := K) (V := V)
            { w with ck := { w.ck with entryIndex := i, entry := (some (w.ck.entry.getD (zipFileEntry zf))).map fun e => { e with woff := 0 } } } h
          split
          · rename_i x hx
            rw [hx] at g1
            exact g1.wrap
          · rename_i hx
            exact (ioCopy_tells _ _ _ (g2 hx)).wrap

theorem zipLoop_tells (A : Archive) (env : ZEnv) (D : Decomp) (F : Nat) (total : Int) : ∀ (fs : List ZFile) (i : Nat) (w : XW K V),
    (∀ zf ∈ fs, strict = true → zf.method = .store → (zipFileEntry zf).kind ≠ .file) →
    (∀ zf, fs.head? = some zf → strict = true → zf.method = .store → w.ck.entry = none) → NoBad strict w.log →
    TellsW strict (zipLoop A env D F total fs i w).1 (zipLoop A env D F total fs i w).2.log := by
  intro fs
  induction fs with
  | nil => intro i w _ _ h; exact Or.inl h
  | cons zf fs ih =>
    intro i w hst hst2 h
    unfold zipLoop
    split
    · exact Or.inl h
    · have he := zipEntry_tells A env D F total i zf w (fun a b => ⟨hst2 zf rfl a b, hst zf (by simp) a b⟩) h
      simp only []
      generalize zipEntry A env D F total i zf w = r at *
      obtain ⟨r1, r2⟩ := r
      cases r1 with
      | some e => exact he.wrapW
      | none =>
        rcases he with he | ⟨e, he, _⟩
        · exact ih _ _ (fun z hz => hst z (by simp [hz])) (fun _ _ _ _ => rfl) he
        · cases he

theorem zipPrealloc_tells : ∀ (fs : List ZFile) (w : XW K V), NoBad strict w.log →
    TellsW strict (zipPrealloc fs w).1 (zipPrealloc fs w).2.log := by
  intro fs
  induction fs with
  | nil => intro w h; exact Or.inl h
  | cons zf fs ih =>
    intro w h
    unfold zipPrealloc
    split
    · simp only []
      obtain ⟨a, b⟩ := tells_call (strict := strict) (ev := .prealloc (zipFileEntry zf) (K.preallocate (zipFileEntry zf) w.sink).1) h rfl rfl
      cases hp : (K.preallocate (zipFileEntry zf) w.sink).1 with
      | some x =>
        rw [hp] at a
        exact a.wrapW
      | none =>
        rw [hp] at b
        exact ih _ (b rfl)
    · exact ih w h

theorem zipResume_tells (A : Archive) (env : ZEnv) (D : Decomp) (F : Nat) (K : SinkM) (V : SaveCons) (ck : Option ECkpt) (k : K.St) (u : V.St)
    (hst : ∀ zf ∈ A.files, strict = true → zf.method = .store → (zipFileEntry zf).kind ≠ .file)
    (hck : ∀ c, ck = some c → c.entry ≠ none → ∀ zf, A.files[c.entryIndex.toNat]? = some zf → strict = true → zf.method ≠ .store) :
    NoBad strict (zipResume A env D F K V ck k u).2.log ∨
    ∃ e, (zipResume A env D F K V ck k u).1 = .error e ∧ e ≠ .stop ∧ Due strict (zipResume A env D F K V ck k u).2.log e := by
  have h0 : NoBad strict (zipInit A ck k u : XW K V).log := by intro ev h; cases h
  have hent : (zipPrepare A ck (zipInit A ck k u : XW K V)).2.ck = ck.getD freshCk := by
    have : ∀ (fs : List ZFile) (w : XW K V), (zipPrealloc fs w).2.ck = w.ck := by
      intro fs
      induction fs with
      | nil => intro w; rfl
      | cons zf fs ih =>
        intro w
        unfold zipPrealloc
        split
        · simp only []
          split
          · rfl
          · rw [ih]; rfl
        · exact ih w
    unfold zipPrepare
    split
    · rw [this]; rfl
    · rfl
  have hp : TellsW strict (zipPrepare A ck (zipInit A ck k u : XW K V)).1 (zipPrepare A ck (zipInit A ck k u : XW K V)).2.log := by
    unfold zipPrepare
    split
    · exact zipPrealloc_tells _ _ h0
    · exact Or.inl h0
  unfold zipResume
  simp only []
  generalize zipPrepare A ck (zipInit A ck k u : XW K V) = p at *
  obtain ⟨p1, p2⟩ := p
  cases p1 with
  | some e =>
    rcases hp with hp | ⟨e', h1, h2⟩
    · exact Or.inl hp
    · cases h1; exact Or.inr ⟨_, rfl, by simp, h2⟩
  | none =>
    rcases hp with hp | ⟨e', h1, h2⟩
    · simp only []
      split
      · exact Or.inl hp
      · have hl := zipLoop_tells (strict := strict) A env D F (zipSum A.files) (A.files.drop (ck.getD freshCk).entryIndex.toNat)
          (ck.getD freshCk).entryIndex.toNat p2 (fun z hz => hst z (List.mem_of_mem_drop hz)) (fun zf hz hs hm => by
            simp only at hent
            rw [hent]
            cases ck with
            | none => rfl
            | some c =>
              rw [List.head?_drop] at hz
              cases hce : c.entry with
              | none => exact hce
              | some e => exact absurd hm (hck c rfl (by rw [hce]; simp) zf hz hs)) hp
        generalize zipLoop A env D F (zipSum A.files) (A.files.drop (ck.getD freshCk).entryIndex.toNat)
          (ck.getD freshCk).entryIndex.toNat p2 = r at *
        obtain ⟨r1, r2⟩ := r
        cases r1 with
        | some e =>
          rcases hl with hl | ⟨e', h1, h2⟩
          · exact Or.inl hl
          · cases h1; exact Or.inr ⟨_, rfl, by simp, h2⟩
        | none =>
          rcases hl with hl | ⟨e', h1, h2⟩
          · simp only []
            split <;> exact Or.inl hl
          · cases h1
    · cases h1

/-! ## tar -/

variable {T : TarFmt}

theorem tarOnSave_tells (pr : Ckpt → Int × Int) (ck : Ckpt) (c : TC T K V) (h : NoBad strict c.xw.log) :
    (strict = true → (tarOnSave T pr ck c).2 = none → NoBad strict (tarOnSave T pr ck c).1.xw.log) ∧
    (strict = false → NoBad strict (tarOnSave T pr ck c).1.xw.log) ∧
    (∀ e, (tarOnSave T pr ck c).2 = some e → e ≠ .eof ∧ (NoBad strict (tarOnSave T pr ck c).1.xw.log ∨ Due strict (tarOnSave T pr ck c).1.xw.log e)) := by
  have hs : ∀ ev : Ev, ev.saving = true → strict = false → ¬ Bad strict ev := by
    rintro ev h1 h2 ⟨_, h3 | h3⟩
    · rw [h2] at h3; cases h3
    · rw [h1] at h3; cases h3
  have hd : ∀ (ck : ECkpt) (x : Err), NoBad strict (c.xw.log ++ [.save ck (.error x)]) ∨
      Due strict (c.xw.log ++ [.save ck (.error x)]) (.wrapped x) := by
    intro ck x
    cases strict with
    | false => exact Or.inl (h.snoc (hs _ rfl rfl))
    | true => exact Or.inr (due_last (x := x) ⟨by simp [Ev.failed], Or.inl rfl⟩ rfl).wrap
  have h2 : ∀ (ck : ECkpt) (b : Action), NoBad strict (c.xw.log ++ [.save ck (.ok b)]) := fun ck b => h.snoc (fun hb => hb.1 rfl)
  unfold tarOnSave
  split
  · exact ⟨fun _ _ => h, fun _ => h, fun e he => by simp at he⟩
  · split
    · refine ⟨fun _ _ => h, fun _ => h, fun e he => ?_⟩
      simp only [Option.some.injEq] at he
      subst he
      exact ⟨by simp, Or.inl h⟩
    · simp only []
      split
      · rename_i x hx
        rw [hx]
        refine ⟨fun _ h => by simp at h, fun h2 => h.snoc (hs _ rfl h2), ?_⟩
        intro e he
        simp only [Option.some.injEq] at he
        subst he
        exact ⟨by simp, hd _ _⟩
      · rename_i hx
        rw [hx]
        exact ⟨fun _ _ => h2 _ _, fun _ => h2 _ _, fun e he => by simp at he⟩
      · rename_i hx
        rw [hx]
        exact ⟨fun _ _ => h2 _ _, fun _ => h2 _ _, fun e he => by simp at he⟩

theorem tarNext_log {S : SourceM} (hS : S.Conduit) (pr : Ckpt → Int × Int) : ∀ (fuel : Nat) (s : S.St) (c : TC T K V), c.cur = false →
    (tarNext S T (tarOnSave T pr) fuel s c).2.2.xw.log = c.xw.log := by
  intro fuel
  induction fuel with
  | zero => intro s c _; rfl
  | succ fuel ih =>
    intro s c hc
    have hr : ∀ n, (S.read (tarOnSave T pr) n s c).2.2 = c := by
      intro n
      rcases hS _ (tarOnSave T pr) n s c with a | ⟨ck, a⟩
      · exact a
      · rw [a]; unfold tarOnSave; rw [if_pos hc]
    unfold tarNext
    split
    · rfl
    · rfl
    · rfl
    · rename_i n hn
      have hr' := hr n
      simp only []
      generalize S.read (tarOnSave T pr) n s c = r at *
      obtain ⟨⟨bs, e⟩, s', c'⟩ := r
      simp only at hr'
      subst hr'
      cases e with
      | none => exact ih _ _ hc
      | some e =>
        simp only []
        split
        · split
          · exact ih _ _ hc
          · split <;> rfl
        · rfl

theorem tarFile_tells {S : SourceM} (hS : S.Conduit) (hR : strict = true → S.Reports) (pr : Ckpt → Int × Int) (F : Nat) (e : Entry) (s : S.St)
    (c : TC T K V) (h : NoBad strict c.xw.log) : Tells strict (tarFile S T pr F e s c).1 (tarFile S T pr F e s c).2.2.xw.log := by
  unfold tarFile
  simp only []
  obtain ⟨g1, g2⟩ := tells_call (strict := strict) (ev := .openW e (K.getWriter e c.xw.sink).1) h rfl rfl
  cases hg : (K.getWriter e c.xw.sink).1 with
  | some x =>
    rw [hg] at g1
    exact g1.wrap
  | none =>
    rw [hg] at g2
    simp only []
    have hread : ∀ q : S.St × TC T K V, NoBad strict q.2.xw.log → NoBad strict ((tarIO S T pr).read q).2.2.xw.log ∨
        ∃ e, ((tarIO S T pr).read q).1.2 = some e ∧ e ≠ .eof ∧ Due strict ((tarIO S T pr).read q).2.2.xw.log e := by
      intro q hq
      show NoBad strict (tarRead S T pr q.1 q.2).2.2.xw.log ∨ ∃ e, (tarRead S T pr q.1 q.2).1.2 = some e ∧ e ≠ .eof ∧ Due strict (tarRead S T pr q.1 q.2).2.2.xw.log e
      unfold tarRead
      split
      · exact Or.inl hq
      · have := read_tells (fun c : TC T K V => c.xw.log) hS hR (tarOnSave T pr) (tarOnSave_tells pr) (min 32768 (T.rem q.2.rd)) q.1 q.2 hq
        simp only []
        generalize S.read (tarOnSave T pr) (min 32768 (T.rem q.2.rd)) q.1 q.2 = r at *
        rcases this with h | ⟨e, h1, h2, h3⟩
        · exact Or.inl h
        · right
          refine ⟨e, ?_, h2, h3⟩
          rw [h1]
          simp [h2]
    have hc : ∀ q : S.St × TC T K V, NoBad strict q.2.xw.log → NoBad strict (copyDo (tarIO S T pr) F q).2.1.2.xw.log ∨
        ∃ e, (copyDo (tarIO S T pr) F q).1 = some e ∧ Due strict (copyDo (tarIO S T pr) F q).2.1.2.xw.log e := fun q hq =>
      copyLoop_tells (tarIO S T pr) (fun q => NoBad strict q.2.xw.log) (fun e q => Due strict q.2.xw.log e) hread
          (fun bs q => (write_tells bs).1) (fun bs q => (write_tells bs).2)
          (fun q hq => hq.snoc (fun hb => hb.1 rfl)) (fun q e hq => hq.snoc _)
          (fun n q hq => hq) (fun q hq => hq) (fun e q hq => hq.wrap) F 0 _ hq
    generalize hW : (s, ({ c with xw := _ } : TC T K V)) = W
    have hc := hc W (by rw [← hW]; exact g2 rfl)
    generalize copyDo (tarIO S T pr) F W = r at *
    obtain ⟨r1, ⟨r2, r3⟩, r4⟩ := r
    cases r1 with
    | some x =>
      rcases hc with hc | ⟨e, h1, h2⟩
      · exact Or.inl hc
      · cases h1
        exact Or.inr ⟨_, rfl, h2.wrap⟩
    | none =>
      rcases hc with hc | ⟨e, h1, h2⟩
      · exact Or.inl (hc.snoc (fun hb => hb.1 rfl))
      · cases h1

theorem tarExtract_tells {S : SourceM} (hS : S.Conduit) (hR : strict = true → S.Reports) (pr : Ckpt → Int × Int) (F : Nat) (e : Entry) (s : S.St)
    (c : TC T K V) (h : NoBad strict c.xw.log) : Tells strict (tarExtract S T pr F e s c).1 (tarExtract S T pr F e s c).2.2.xw.log := by
  have key : ∀ (r : Option Err × S.St × TC T K V), Tells strict r.1 r.2.2.xw.log → Tells strict
      (match r.1 with
      | some x => (some x, r.2)
      | none => (none, r.2.1, { r.2.2 with xw := { r.2.2.xw with ck := { r.2.2.xw.ck with entry := none, srcCk := none, data := none } } })).1
      (match r.1 with
      | some x => (some x, r.2)
      | none => (none, r.2.1, { r.2.2 with xw := { r.2.2.xw with ck := { r.2.2.xw.ck with entry := none, srcCk := none, data := none } } })).2.2.xw.log := by
    rintro ⟨r1, r2⟩ hr
    cases r1 <;> exact hr
  unfold tarExtract
  simp only []
  refine key _ ?_
  split
  · exact (tells_call h rfl rfl).1.wrap
  · exact (tells_call h rfl rfl).1.wrap
  · exact tarFile_tells hS hR pr F e s _ h

theorem tarStep_tells {S : SourceM} (hS : S.Conduit) (hR : strict = true → S.Reports) (pr : Ckpt → Int × Int) (F : Nat) (idx : Int) (s : S.St)
    (c : TC T K V) (h : NoBad strict c.xw.log) : NoBad strict (tarStep S T pr F idx s c).2.2.xw.log ∨
      ∃ e, (tarStep S T pr F idx s c).1 = .error e ∧ Due strict (tarStep S T pr F idx s c).2.2.xw.log e := by
  have key : ∀ (r : Option Err × S.St × TC T K V), Tells strict r.1 r.2.2.xw.log → NoBad strict r.2.2.xw.log ∨
      ∃ e, (match r.1 with | some x => .error x | none => .ok false : Except Err Bool) = .error e ∧ Due strict r.2.2.xw.log e := by
    rintro ⟨r1, r2⟩ hr
    rcases hr with hr | ⟨e, h1, h2⟩
    · exact Or.inl hr
    · simp only at h1; subst h1; exact Or.inr ⟨e, rfl, h2⟩
  unfold tarStep
  simp only []
  split
  · exact key _ (tarExtract_tells hS hR pr F _ s _ h)
  · have hn := tarNext_log (T := T) (K := K) (V := V) hS pr F s { c with cur := false, xw := { c.xw with ck := { c.xw.ck with entryIndex := idx } } } rfl
    generalize tarNext S T (tarOnSave T pr) F s { c with cur := false, xw := { c.xw with ck := { c.xw.ck with entryIndex := idx } } } = n at *
    obtain ⟨n1, n2, n3⟩ := n
    have hn' : NoBad strict n3.xw.log := by rw [hn]; exact h
    cases n1 with
    | error x => exact Or.inl hn'
    | ok hd =>
      simp only []
      split
      · exact Or.inl hn'
      · exact key _ (tarExtract_tells hS hR pr F _ n2 n3 hn')

theorem tarLoop_tells {S : SourceM} (hS : S.Conduit) (hR : strict = true → S.Reports) (pr : Ckpt → Int × Int) (F : Nat) :
    ∀ (fuel : Nat) (idx : Int) (s : S.St) (c : TC T K V), NoBad strict c.xw.log →
    TellsW strict (tarLoop S T pr F fuel idx s c).1 (tarLoop S T pr F fuel idx s c).2.2.xw.log := by
  intro fuel
  induction fuel with
  | zero => intro idx s c h; exact Or.inl h
  | succ fuel ih =>
    intro idx s c h
    unfold tarLoop
    split
    · exact Or.inl h
    · have hs := tarStep_tells hS hR pr F idx s c h
      simp only []
      generalize tarStep S T pr F idx s c = r at *
      obtain ⟨r1, r2, r3⟩ := r
      rcases hs with hs | ⟨e, h1, h2⟩
      · cases r1 with
        | error x => exact Or.inl hs
        | ok b =>
          cases b with
          | true => exact Or.inl hs
          | false => exact ih _ _ _ hs
      · simp only at h1
        subst h1
        exact Or.inr ⟨_, rfl, h2.wrap⟩

theorem tarBegin_log (S : SourceM) (F : Nat) (ck : Option ECkpt) (src : S.St) (k : K.St) (u : V.St) :
    (tarBegin S T F ck src k u).2.2.xw.log = [] := by
  have h1 : (tarFresh S T src k u : Option Err × S.St × TC T K V).2.2.xw.log = [] := by
    unfold tarFresh; simp only []; split <;> rfl
  unfold tarBegin
  split
  · split
    · unfold tarAgain
      simp only []
      split
      · rfl
      · split
        · rfl
        · split <;> rfl
    · exact h1
  · exact h1

theorem tarResume_tells {S : SourceM} (hS : S.Conduit) (hR : strict = true → S.Reports) (pr : Ckpt → Int × Int) (F : Nat) (K : SinkM) (V : SaveCons)
    (ck : Option ECkpt) (src : S.St) (k : K.St) (u : V.St) :
    NoBad strict (tarResume S T pr F K V ck src k u).2.2.log ∨
    ∃ e, (tarResume S T pr F K V ck src k u).1 = .error e ∧ e ≠ .stop ∧ Due strict (tarResume S T pr F K V ck src k u).2.2.log e := by
  have h0 : NoBad strict (tarBegin S T F ck src k u : Option Err × S.St × TC T K V).2.2.xw.log := by
    rw [tarBegin_log]; intro ev h; cases h
  unfold tarResume
  simp only []
  generalize (tarBegin S T F ck src k u : Option Err × S.St × TC T K V) = b at *
  obtain ⟨b1, b2, b3⟩ := b
  cases b1 with
  | some x => exact Or.inl h0
  | none =>
    simp only []
    have hl := tarLoop_tells hS hR pr F F b3.xw.ck.entryIndex (S.setSSC true b2) b3 h0
    generalize tarLoop S T pr F F b3.xw.ck.entryIndex (S.setSSC true b2) b3 = r at *
    obtain ⟨r1, r2, r3⟩ := r
    cases r1 with
    | some e =>
      rcases hl with hl | ⟨e', h1, h2⟩
      · exact Or.inl hl
      · cases h1; exact Or.inr ⟨_, rfl, by simp, h2⟩
    | none =>
      rcases hl with hl | ⟨e', h1, h2⟩
      · exact Or.inl hl
      · cases h1

end
end Savior
