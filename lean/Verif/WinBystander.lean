import Verif.Spec.WinBystander
import Verif.WinDisk
import Verif.Bystander
/-!
# Extractions leave bystanders alone on Windows
-/

namespace Savior
open FSink

theorem createFileW_newer (w : WCfg) (e : Entry) (s : OS) (ht : s.fs.Tree) : Newer s.fs (createFileW w e s).2.fs := by
  unfold createFileW
  split
  · exact .refl _
  rename_i dst _
  simp only
  have hm := mkdirAll_newer w.flt (w.names dst).dropLast s ht
  generalize s.mkdirAll w.flt (w.names dst).dropLast = m at *
  obtain ⟨me, M⟩ := m
  cases me with
  | some x => exact hm
  | none =>
    simp only at hm ⊢
    have hr : Newer s.fs (dropLink w.flt (w.names dst) M).2.fs := by
      unfold dropLink
      split
      · exact hm.trans (removeAll_newer _ _ _)
      · exact hm
    generalize dropLink w.flt (w.names dst) M = r at *
    obtain ⟨re, R⟩ := r
    cases re with
    | some x => exact hr
    | none =>
      simp only at hr ⊢
      have ho := hr.trans (open_newer w.flt w.umask (w.names dst) (fileMode e) R)
      generalize R.openCreate w.flt w.umask (w.names dst) (fileMode e) = o at *
      obtain ⟨oe, O⟩ := o
      cases oe <;> exact ho

theorem mkdirW_newer (w : WCfg) (e : Entry) (s : FSink) (ht : s.os.fs.Tree) : Newer s.os.fs (s.mkdirW w e).2.os.fs := by
  unfold mkdirW
  split
  · exact .refl _
  split
  · exact .refl _
  simp only
  split
  · exact .refl _
  · rename_i dst _ _ q n hnd hf
    have hr : Newer s.os.fs (s.os.remove w.flt (w.names dst)).2.fs ∧ (s.os.remove w.flt (w.names dst)).2.fs.Tree := by
      refine ⟨.fewer (remove_fewer w.flt _ s.os).2 ?_, remove_tree _ _ _ ht⟩
      rcases OS.remove_cases w.flt (w.names dst) s.os with ⟨e, _, h⟩ | ⟨q, n, _, _, _, h⟩ <;> rw [h] <;> rfl
    generalize s.os.remove w.flt (w.names dst) = r at *
    obtain ⟨re, R⟩ := r
    cases re with
    | some x => exact hr.1
    | none => exact hr.1.trans (mkdirAll_newer _ _ _ hr.2)
  · exact mkdirAll_newer _ _ _ ht

theorem preallocateW_newer (w : WCfg) (e : Entry) (s : FSink) (ht : s.os.fs.Tree) : Newer s.os.fs (s.preallocateW w e).2.os.fs := by
  unfold preallocateW
  split
  · exact .refl _
  simp only
  have hc := createFileW_newer w e s.os ht
  generalize createFileW w e s.os = c at *
  obtain ⟨ce, C⟩ := c
  cases ce with
  | error x => exact hc
  | ok i =>
    simp only at hc ⊢
    rw [quietCall_fs]
    split
    · split
      · obtain ⟨k, hf, _⟩ := legacy_cases w.toFCfg i e.usize C
        rw [hf]; exact hc.same rfl rfl
      · rcases ox_cases w.toFCfg i e.usize C with ⟨hf, _⟩ | ⟨hf, _⟩
        · rw [hf]; exact hc
        · rw [hf]; exact hc.same rfl rfl
    · exact hc

theorem mkdirW_writers (w : WCfg) (e : Entry) (s : FSink) : (s.mkdirW w e).2.ws = s.ws := by
  unfold mkdirW
  split
  · rfl
  split
  · rfl
  simp only
  split
  · rfl
  · split <;> rfl
  · rfl

theorem preallocateW_writers (w : WCfg) (e : Entry) (s : FSink) : (s.preallocateW w e).2.ws = s.ws := by
  unfold preallocateW
  split
  · rfl
  simp only
  split <;> rfl

theorem writeAt_writers (cfg : FCfg) (k : Nat) (bs : List Byte) (s : FSink) : ∀ j x y, Wr.real j x y ∈ (s.writeAt cfg k bs).2.ws → ∃ x' y', Wr.real j x' y' ∈ s.ws := by
  intro j x y hm
  cases hw : s.ws[k]? with
  | none => unfold writeAt at hm; rw [hw] at hm; exact ⟨x, y, hm⟩
  | some wr =>
    cases wr with
    | nop => unfold writeAt at hm; rw [hw] at hm; exact ⟨x, y, hm⟩
    | real i o op =>
      cases op with
      | false => unfold writeAt at hm; rw [hw] at hm; exact ⟨x, y, hm⟩
      | true =>
        rcases write_cases cfg k bs s i o hw with ⟨e, n, _, _, _, _, _, q2, _⟩ | ⟨_, _, q2, _⟩
        · rw [q2] at hm; exact set_writers hw j x y hm
        · rw [q2] at hm; exact set_writers hw j x y hm

section
variable {S : Path → Kind → Prop} {L : Path} {kd : Kind}

theorem preallocateW_keeps (hS : Planned S) {w : WCfg} {e : Entry} {s : FSink} (h : DiskOK S s.os.fs) {dst : Str} (hd : w.destPath e.path = .ok dst) {Q : Path}
    (hq : w.names dst = Q) (hQ : S Q .file) : Keeps S Q s.os.fs (s.preallocateW w e).2.os.fs := by
  unfold preallocateW
  split
  · exact .refl S Q _
  obtain ⟨c1, c2, c3, c4⟩ := createFileW_disk hS h hd hq hQ
  generalize createFileW w e s.os = c at *
  obtain ⟨ce, C⟩ := c
  simp only at c1 c2 c4 ⊢
  cases ce with
  | error x => exact c2
  | ok i =>
    simp only
    rw [quietCall_fs]
    have hn := c4 i rfl
    split
    · split
      · obtain ⟨k, hf, _⟩ := legacy_cases w.toFCfg i e.usize C
        rw [hf]
        exact c2.trans (c1.setData hQ hn _).2.1
      · rcases ox_cases w.toFCfg i e.usize C with ⟨hf, _⟩ | ⟨hf, _⟩
        · rw [hf]; exact c2
        · rw [hf]; exact c2.trans (c1.setData hQ hn _).2.1
    · exact c2

/-- A new writer is for a file at its entry's place. -/
theorem getWriterW_clear (hS : Planned S) (hL : S L kd) {w : WCfg} {e : Entry} {s : FSink} (h : DiskOK S s.os.fs) {dst : Str} (hd : w.destPath e.path = .ok dst)
    {Q : Path} (hq : w.names dst = Q) (hQ : S Q .file) (hne : L ≠ Q) (hc : Clear L s) : Newer s.os.fs (s.getWriterW w e).2.os.fs ∧ Clear L (s.getWriterW w e).2 := by
  have hnew := createFileW_newer w e s.os h.tree
  obtain ⟨c1, _, _, c4⟩ := createFileW_disk hS h hd hq hQ
  unfold getWriterW
  split
  · refine ⟨.refl _, hc.step (.refl _) fun i p o hm => ?_⟩
    simp only [List.mem_append, List.mem_singleton, reduceCtorEq, or_false] at hm
    exact ⟨p, o, hm⟩
  generalize createFileW w e s.os = c at *
  obtain ⟨ce, C⟩ := c
  simp only at c1 c4 hnew ⊢
  cases ce with
  | error x => exact ⟨hnew, hc.step hnew fun i p o hm => ⟨p, o, hm⟩⟩
  | ok i =>
    simp only
    have hn := c4 i rfl
    have tn : (C.truncate w.flt i e.woff).2.fs.nodes = C.fs.nodes ∧ (C.truncate w.flt i e.woff).2.fs.next = C.fs.next := by
      rcases truncate_cases w.flt i e.woff C with ⟨x, _, t2⟩ | ⟨_, _, t2⟩ <;> rw [t2] <;> exact ⟨rfl, rfl⟩
    generalize C.truncate w.flt i e.woff = t at *
    obtain ⟨te, T⟩ := t
    simp only at tn
    have hT : Newer s.os.fs T.fs := hnew.same tn.1 tn.2
    cases te with
    | some x => exact ⟨hT, hc.step hT fun i p o hm => ⟨p, o, hm⟩⟩
    | none =>
      simp only
      have hcl := close_fs w.toFCfg { s with os := T }
      have hws := close_writers w.toFCfg { s with os := T }
      generalize FSink.close w.toFCfg { s with os := T } = cl at *
      obtain ⟨cle, CL⟩ := cl
      simp only at hcl hws ⊢
      have hN : Newer s.os.fs CL.os.fs := by rw [hcl.1]; exact hT
      refine ⟨hN, fun j p o hm => ?_⟩
      rcases List.mem_append.1 hm with hm | hm
      · exact (hc.step (s' := CL) hN hws) j p o hm
      · simp only [List.mem_singleton, Wr.real.injEq] at hm
        rw [hm.1]
        show i < CL.os.fs.next ∧ CL.os.fs.nodes L ≠ some (.file i)
        rw [hcl.1, tn.1, tn.2]
        exact ⟨c1.low Q .file i hQ hn, fun hx => hne (c1.alone L kd Q .file i hL hQ hx hn)⟩

theorem symlinkW_clear (hS : Planned S) (hL : S L kd) {w : WCfg} {e : Entry} {t : Str} {s : FSink} (h : DiskOK S s.os.fs) {dst : Str} (hd : w.destPath e.path = .ok dst)
    {Q : Path} (hq : w.names dst = Q) (hQ : S Q .file) (hne : L ≠ Q) (hc : Clear L s) : Clear L (s.symlinkW w e t).2 := by
  unfold symlinkW
  split
  · exact hc
  simp only
  have g := (getWriterW_clear hS hL h hd hq hQ hne hc).2
  generalize s.getWriterW w e = g' at *
  obtain ⟨ge, G⟩ := g'
  cases ge with
  | some x => exact g
  | none =>
    simp only at g ⊢
    obtain ⟨q1, _, q3⟩ := (writer_quiet w.toFCfg G).1 (G.ws.length - 1) t
    have c1 : Clear L (G.writeAt w.toFCfg (G.ws.length - 1) t).2 := g.step ((Newer.refl _).same q1 q3) (writeAt_writers _ _ _ _)
    have f := (closeAt_fs w.toFCfg (G.ws.length - 1) (G.writeAt w.toFCfg (G.ws.length - 1) t).2).1
    exact c1.step ((Newer.refl _).same (by rw [f]) (by rw [f])) (closeAt_writers _ _ _)

/-- Everything is well with what is at `L`. -/
structure SparedW (S : Path → Kind → Prop) (L : Path) (fs0 : FS) (s : FSink) : Prop where
  disk : DiskOK S s.os.fs
  same : s.os.fs.holds L = fs0.holds L
  clear : Clear L s

theorem SparedW.step {fs0 : FS} (hth : ∃ n, fs0.holds L = some n) (hL : S L kd) {s s' : FSink} (h : SparedW S L fs0 s) {Q : Path}
    (hd : DiskOK S s'.os.fs) (hk : Keeps S Q s.os.fs s'.os.fs) (hne : L ≠ Q) (hc : Clear L s') : SparedW S L fs0 s' := by
  obtain ⟨n, hn⟩ := hth
  exact ⟨hd, (hk L kd n hL hne (h.same.trans hn)).trans hn.symm, hc⟩

variable {w : WCfg} {plan : List (Str × Kind)} {fs0 : FS}

/-- What the calls of an extraction do to what is at `L`: nothing. -/
theorem calls_spareW (hS : Planned S) (hsub : ∀ Q k, PlanPlaceW w plan Q k → S Q k ∧ L ≠ Q) (hL : S L kd) (hth : ∃ n, fs0.holds L = some n)
    {tidy b : Bool} {k s : (winSink w).St} {log : List Ev}
    (h : Calls (winSink w) tidy k b log s) (hk : SparedW S L fs0 k) (ha : AboutOK (fun e => (e.path, e.kind) ∈ plan) log) : SparedW S L fs0 s := by
  have sub : ∀ {l : List Ev} {ev : Ev}, AboutOK (fun e => (e.path, e.kind) ∈ plan) (l ++ [ev]) → AboutOK (fun e => (e.path, e.kind) ∈ plan) l :=
    fun h ev hm => h ev (List.mem_append_left _ hm)
  have lastOne : ∀ {l : List Ev} {ev : Ev}, AboutOK (fun e => (e.path, e.kind) ∈ plan) (l ++ [ev]) → ∀ kd e, ev.about = some (kd, e) → e.kind = kd ∧ (e.path, e.kind) ∈ plan :=
    fun h => h _ (List.mem_append_right _ (List.mem_singleton.2 rfl))
  have place : ∀ {e : Entry} {kk : Kind} {dst : Str}, shouldIgnore e.path = false → w.destPath e.path = .ok dst → e.kind = kk ∧ (e.path, e.kind) ∈ plan →
      S (w.names dst) (winKind kk) ∧ L ≠ w.names dst := by
    intro e kk dst hi hd hp
    exact hsub _ _ ⟨_, kk, hp.1 ▸ hp.2, hi, placeOf_ok hd, rfl⟩
  have writers : ∀ {s s' : FSink}, SparedW S L fs0 s → s'.os.fs.nodes = s.os.fs.nodes → s'.os.fs.next = s.os.fs.next →
      s'.os.fs.holds L = s.os.fs.holds L → (∀ j x y, Wr.real j x y ∈ s'.ws → ∃ x' y', Wr.real j x' y' ∈ s.ws) → SparedW S L fs0 s' := by
    intro s s' h hn hx hh hw
    exact ⟨h.disk.same hn hx, hh.trans h.same, h.clear.step ((Newer.refl _).same hn hx) hw⟩
  have opened : ∀ (e : Entry) (s : FSink), SparedW S L fs0 s → e.kind = .file ∧ (e.path, e.kind) ∈ plan → SparedW S L fs0 (s.getWriterW w e).2 := by
    intro e s ih hp
    cases hi : shouldIgnore e.path with
    | true =>
      rw [getWriterW_ignored (s := s) hi]
      refine ⟨ih.disk, ih.same, fun i p o hm => ?_⟩
      simp only [List.mem_append, List.mem_singleton, reduceCtorEq, or_false] at hm
      exact ih.clear i p o hm
    | false =>
      cases hd : w.destPath e.path with
      | error x => rw [getWriterW_refused (s := s) hi hd]; exact ih
      | ok dst =>
        obtain ⟨hQ, hne⟩ := place hi hd hp
        obtain ⟨d1, d2, _, _⟩ := getWriterW_disk hS hi ih.disk hd rfl hQ
        exact ih.step hth hL d1 d2 hne (getWriterW_clear hS hL ih.disk hd rfl hQ hne ih.clear).2
  induction h with
  | start => exact hk
  | note ev _ _ ih => exact ih (sub ha)
  | @prealloc b l s e _ ih =>
    have ih := ih (sub ha)
    show SparedW S L fs0 (FSink.preallocateW w e s).2
    cases hi : shouldIgnore e.path with
    | true => unfold preallocateW; rw [hi]; exact ih
    | false =>
      cases hd : w.destPath e.path with
      | error x =>
        unfold preallocateW
        simp only [hi, Bool.false_eq_true, if_false]
        rw [createFileW_refused hd]; exact ih
      | ok dst =>
        obtain ⟨hQ, hne⟩ := place hi hd (lastOne ha .file e rfl)
        exact ih.step hth hL (preallocateW_disk hS ih.disk hd rfl hQ) (preallocateW_keeps hS ih.disk hd rfl hQ) hne
          (ih.clear.step (preallocateW_newer w e s ih.disk.tree) fun i p o hm => ⟨p, o, by have hw : FSink.ws (FSink.preallocateW w e s).2 = FSink.ws s := preallocateW_writers w e s; rw [← hw]; exact hm⟩)
  | @mkdir b l s e _ ih =>
    have ih := ih (sub ha)
    show SparedW S L fs0 (FSink.mkdirW w e s).2
    cases hi : shouldIgnore e.path with
    | true => unfold mkdirW; rw [hi]; exact ih
    | false =>
      cases hd : w.destPath e.path with
      | error x => unfold mkdirW; rw [hi, hd]; exact ih
      | ok dst =>
        obtain ⟨hQ, hne⟩ := place hi hd (lastOne ha .dir e rfl)
        obtain ⟨d1, d2, _⟩ := mkdirW_disk hS hi ih.disk hd rfl hQ
        exact ih.step hth hL d1 d2 hne
          (ih.clear.step (mkdirW_newer w e s ih.disk.tree) fun i p o hm => ⟨p, o, by have hw : FSink.ws (FSink.mkdirW w e s).2 = FSink.ws s := mkdirW_writers w e s; rw [← hw]; exact hm⟩)
  | @symlink b l s e t _ ih =>
    have ih := ih (sub ha)
    show SparedW S L fs0 (FSink.symlinkW w e t s).2
    cases hi : shouldIgnore e.path with
    | true => unfold symlinkW; rw [hi]; exact ih
    | false =>
      cases hd : w.destPath e.path with
      | error x => rw [symlinkW_refused (s := s) hi hd]; exact ih
      | ok dst =>
        obtain ⟨hQ, hne⟩ := place hi hd (lastOne ha .symlink e rfl)
        obtain ⟨d1, d2, _⟩ := symlinkW_disk (t := t) hS hi ih.disk hd rfl hQ
        exact ih.step hth hL d1 d2 hne (symlinkW_clear hS hL ih.disk hd rfl hQ hne ih.clear)
  | @opened b l s e _ _ hg ih => exact opened e s (ih (sub ha)) (lastOne ha .file e rfl)
  | @refused b l s e x _ _ hg ih => exact opened e s (ih (sub ha)) (lastOne ha .file e rfl)
  | @write l s bs _ ih =>
    have ih := ih (sub ha)
    show SparedW S L fs0 (FSink.writeAt w.toFCfg ((FSink.ws s).length - 1) bs s).2
    obtain ⟨w1, _, w3⟩ := (writer_quiet w.toFCfg s).1 ((FSink.ws s).length - 1) bs
    cases hw : (FSink.ws s)[(FSink.ws s).length - 1]? with
    | none => unfold writeAt; rw [hw]; exact ih
    | some wr =>
      cases wr with
      | nop => unfold writeAt; rw [hw]; exact ih
      | real i o op =>
        cases op with
        | false => unfold writeAt; rw [hw]; exact ih
        | true =>
          have hcl := (ih.clear i o true (List.mem_of_getElem? hw)).2
          have hh : ∀ c, ((FSink.os s).fs.setData i c).holds L = (FSink.os s).fs.holds L := fun c => holds_congr rfl fun j hj => by
            show (if j = i then c else (FSink.os s).fs.data j) = _
            rw [if_neg (by rintro rfl; exact hcl hj)]
          rcases write_cases w.toFCfg _ bs s i o hw with ⟨e, n, _, _, _, _, q1, q2, _⟩ | ⟨_, q1, q2, _⟩
          · exact writers ih w1 w3 (by rw [q1]; exact hh _) (by rw [q2]; exact set_writers hw)
          · exact writers ih w1 w3 (by rw [q1]; exact hh _) (by rw [q2]; exact set_writers hw)
  | @sync l s _ ih =>
    have ih := ih (sub ha)
    show SparedW S L fs0 (FSink.syncAt w.toFCfg ((FSink.ws s).length - 1) s).2
    have g := (writer_quiet w.toFCfg s).2.1 ((FSink.ws s).length - 1)
    refine writers ih (by rw [g]) (by rw [g]) (by rw [g]) fun j x y hm => ?_
    unfold syncAt at hm
    split at hm <;> exact ⟨x, y, hm⟩
  | @close l s _ ih =>
    have ih := ih ha
    show SparedW S L fs0 (FSink.closeAt w.toFCfg ((FSink.ws s).length - 1) s).2
    have g := (writer_quiet w.toFCfg s).2.2 ((FSink.ws s).length - 1)
    exact writers ih (by rw [g]) (by rw [g]) (by rw [g]) (closeAt_writers w.toFCfg _ s)

end
end Savior
