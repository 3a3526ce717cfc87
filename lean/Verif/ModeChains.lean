import Verif.AnyModes
import Verif.Props.Members
import Verif.Props.FolderFaults
/-!
# Permissions over chains of extractions
-/

namespace Savior
open FSink

section
variable {cfg : FCfg} {B : Path}

/-- Places of different names differ. -/
theorem same_name {plan : List (Str × Kind)} (hind : Independent cfg B plan) {p q : Str} {k l : Kind} (hp : (p, k) ∈ plan) (hq : (q, l) ∈ plan)
    (ip : shouldIgnore p = false) (iq : shouldIgnore q = false) (bp : B <+: namePlace B p) (h : namePlace B p = namePlace B q) : q = p := by
  by_cases e : p = q
  · exact e.symm
  · exact absurd h (hind (p, k) hp (q, l) hq ip iq bp (by rw [← h]; exact bp) e).1

theorem next_os {s s' : (folderSink cfg).St} (hn : (folderSink cfg).Next s s') : FSink.os s' = FSink.os s := by
  rcases hn with rfl | rfl <;> rfl

theorem lists_plan {A : Archive} {e : Entry} (h : A.Lists e) : (e.path, e.kind) ∈ A.plan := by
  obtain ⟨zf, hm, g⟩ := h
  refine List.mem_map.2 ⟨zf, hm, ?_⟩
  rw [g.path, g.kind]
  rfl

theorem AboutOK.imp {P Q : Entry → Prop} {log : List Ev} (h : AboutOK P log) (hpq : ∀ e, P e → Q e) : AboutOK Q log :=
  fun ev hm kd e he => ⟨(h ev hm kd e he).1, hpq e (h ev hm kd e he).2⟩

variable {A : Archive} {D : Decomp} {F : Nat}

/-- Where the permissions of the file at a planned place come from: it had them, or a member of that name asks for them. -/
def ZipPerm (cfg : FCfg) (A : Archive) (B : Path) (fs fs' : FS) : Prop :=
  ∀ p, (p, .file) ∈ A.plan → shouldIgnore p = false → B <+: namePlace B p → ∀ m, fs'.permAt (namePlace B p) = some m →
    fs.permAt (namePlace B p) = some m ∨
    ∃ zf ∈ A.files, zf.name = p ∧ (zipFileEntry zf).kind = .file ∧ (m = wantPerm zf.mode ∨ m = without (wantPerm zf.mode) cfg.umask)

theorem ZipPerm.trans {a b c : FS} (h : ZipPerm cfg A B a b) (k : ZipPerm cfg A B b c) : ZipPerm cfg A B a c := by
  intro p h1 h2 h3 m hm
  rcases k p h1 h2 h3 m hm with g | g
  · exact h p h1 h2 h3 m g
  · exact Or.inr g

theorem zipRun_perm (hB : cfg.Base B) (hind : Independent cfg B A.plan) (env : ZEnv) (V : SaveCons) (u : V.St) (ck : Option ECkpt) (k : (folderSink cfg).St)
    (hk : DiskOK (PlanPlace cfg B A.plan) (FSink.os k).fs) (hck : ∀ c e, ck = some c → c.entry = some e → A.Lists e) :
    DiskOK (PlanPlace cfg B A.plan) (FSink.os (zipResume A env D F (folderSink cfg) V ck k u).2.sink).fs ∧
    ZipPerm cfg A B (FSink.os k).fs (FSink.os (zipResume A env D F (folderSink cfg) V ck k u).2.sink).fs := by
  obtain ⟨b, hc⟩ := zipResume_calls A env D F (folderSink cfg) V ck k u
  have ha := (zipResume_member A env D F (folderSink cfg) ((lists_unmoved A).climbs _) V ck k u (lists_entry A) hck).log
  obtain ⟨d, p⟩ := calls_perm hB hind hc hk (ha.imp fun _ => lists_plan)
  refine ⟨d, fun n h1 h2 h3 m hm => ?_⟩
  rcases p _ ⟨n, h1, h2, h3, rfl⟩ m hm with g | ⟨e, ⟨r, hr⟩, ie, he, hmode⟩
  · exact Or.inl g
  · right
    have hx : e.kind = .file ∧ A.Lists e := by
      rcases hr with hr | hr
      · exact ha _ hr .file e rfl
      · exact ha _ hr .file e rfl
    have hname := same_name hind h1 (lists_plan hx.2) h2 ie h3 he
    obtain ⟨zf, hz, g⟩ := hx.2
    refine ⟨zf, hz, by rw [← g.path, hname], ?_, ?_⟩
    · have := hx.1
      rw [g.kind] at this
      exact this
    · rw [← g.mode, ← fileMode_want]; exact hmode

theorem chosen_lists {k0 k : (folderSink cfg).St} {hist before : List ECkpt} {ck : Option ECkpt} (h : ZipAttempts A D F (folderSink cfg) k0 hist k) (hc : ChooseCk hist ck before) :
    ∀ c e, ck = some c → c.entry = some e → A.Lists e := by
  intro c e h1 h2
  subst h1
  cases hc with
  | @pick a b _ he => exact zipAttempts_lists h c (by rw [he]; simp) e h2

theorem zipChain_perm (hB : cfg.Base B) (hind : Independent cfg B A.plan) {k0 k : (folderSink cfg).St} {hist : List ECkpt}
    (hk : DiskOK (PlanPlace cfg B A.plan) (FSink.os k0).fs) (h : ZipAttempts A D F (folderSink cfg) k0 hist k) :
    DiskOK (PlanPlace cfg B A.plan) (FSink.os k).fs ∧ ZipPerm cfg A B (FSink.os k0).fs (FSink.os k).fs := by
  induction h with
  | refl => exact ⟨hk, fun _ _ _ _ _ hm => Or.inl hm⟩
  | @step hist ck before k1 k2 env V u he hz hc hn ih =>
    obtain ⟨d, p⟩ := zipRun_perm (D := D) (F := F) hB hind env V u ck k1 ih.1 (chosen_lists hz hc)
    rw [next_os hn]
    exact ⟨d, ih.2.trans p⟩
  | @kept hist ck before k1 k2 env V u he hz hc hs hn ih =>
    obtain ⟨d, p⟩ := zipRun_perm (D := D) (F := F) hB hind env V u ck k1 ih.1 (chosen_lists hz hc)
    rw [next_os hn]
    exact ⟨d, ih.2.trans p⟩

/-- Files were created or opened only for names that lead inside. -/
theorem filed_inside (hB : cfg.Base B) {tidy b : Bool} {k s : (folderSink cfg).St} {log : List Ev} (h : Calls (folderSink cfg) tidy k b log s) {e : Entry}
    (he : Ev.openW e none ∈ log ∨ Ev.prealloc e none ∈ log) (hi : shouldIgnore e.path = false) : B <+: namePlace B e.path := by
  cases hd : cfg.destPath e.path with
  | ok dst => exact (dest_place hB hd).2
  | error x =>
    exfalso
    have hw : ∀ t : FSink, (FSink.getWriter cfg e t).1 ≠ none := by
      intro t
      rw [getWriter_refused (s := t) hi hd]
      simp
    have hp : ∀ t : FSink, (FSink.preallocate cfg e t).1 ≠ none := by
      intro t
      unfold FSink.preallocate
      simp only [hi, Bool.false_eq_true, if_false]
      rw [createFile_refused hd]
      simp
    induction h with
    | start => simp at he
    | @opened b l s e' _ _ hg ih =>
      rcases he with h | h <;> rcases List.mem_append.1 h with h | h
      · exact ih (Or.inl h)
      · rw [List.mem_singleton, Ev.openW.injEq] at h
        exact hw s (by rw [h.1]; exact hg)
      · exact ih (Or.inr h)
      · simp at h
    | @refused b l s e' x _ _ hg ih =>
      rcases he with h | h <;> rcases List.mem_append.1 h with h | h
      · exact ih (Or.inl h)
      · simp at h
      · exact ih (Or.inr h)
      · simp at h
    | @prealloc b l s e' _ ih =>
      rcases he with h | h <;> rcases List.mem_append.1 h with h | h
      · exact ih (Or.inl h)
      · simp at h
      · exact ih (Or.inr h)
      · rw [List.mem_singleton, Ev.prealloc.injEq] at h
        exact hp s (by rw [h.1]; exact h.2.symm)
    | @note b l s ev hc hn ih =>
      rcases he with h | h <;> rcases List.mem_append.1 h with h | h
      · exact ih (Or.inl h)
      · rw [List.mem_singleton] at h
        subst h
        simp [Ev.noted] at hn
      · exact ih (Or.inr h)
      · rw [List.mem_singleton] at h
        subst h
        simp [Ev.noted] at hn
    | close _ ih => exact ih he
    | _ =>
      rename_i ih
      rcases he with h | h <;> rcases List.mem_append.1 h with h | h
      · exact ih (Or.inl h)
      · simp at h
      · exact ih (Or.inr h)
      · simp at h

end

section
variable {cfg : FCfg} {B : Path} {A : Archive} {D : Decomp} {F : Nat} {p : Str} {x : Nat}

/-- What may be resumed from, and the file called `p`. -/
structure ModeCk (B : Path) (A : Archive) (p : Str) (x : Nat) (fs : FS) (c : ECkpt) : Prop where
  below : B <+: namePlace B p
  there : fs.permAt (namePlace B p) ≠ none
  inside : ∃ n : Nat, c.entryIndex = n ∧ (∀ e, c.entry = some e → ∃ zf, A.files[n]? = some zf ∧ e.path = zf.name ∧ e.kind = (zipFileEntry zf).kind) ∧
    ∀ j zf, j < n → A.files[j]? = some zf → zf.name = p → fs.permAt (namePlace B p) = some x

/-- All members of this name are files for which the permissions `x` are asked. -/
def Alone (A : Archive) (p : Str) (x : Nat) : Prop := ∀ zf ∈ A.files, zf.name = p → (zipFileEntry zf).kind = .file ∧ wantPerm zf.mode = x

/-- A run of the zip extractor and the file called `p`. -/
theorem zipRun_exact (hB : cfg.Base B) (hind : Independent cfg B A.plan) (env : ZEnv) (V : SaveCons) (u : V.St) (ck : Option ECkpt) (k : (folderSink cfg).St)
    (hk : DiskOK (PlanPlace cfg B A.plan) (FSink.os k).fs) (hck : ∀ c e, ck = some c → c.entry = some e → A.Lists e)
    (hi : shouldIgnore p = false) (hp : (p, .file) ∈ A.plan) (hx : Alone A p x) (hm : ∀ c, ck = some c → ModeCk B A p x (FSink.os k).fs c) :
    (∀ c ∈ savedCks (zipResume A env D F (folderSink cfg) V ck k u).2.log, ModeCk B A p x (FSink.os (zipResume A env D F (folderSink cfg) V ck k u).2.sink).fs c) ∧
    ((zipResume A env D F (folderSink cfg) V ck k u).1 = .error .stop →
      ModeCk B A p x (FSink.os (zipResume A env D F (folderSink cfg) V ck k u).2.sink).fs (zipResume A env D F (folderSink cfg) V ck k u).2.ck) ∧
    (∀ c, ModeCk B A p x (FSink.os k).fs c → ModeCk B A p x (FSink.os (zipResume A env D F (folderSink cfg) V ck k u).2.sink).fs c) ∧
    (∀ res, (zipResume A env D F (folderSink cfg) V ck k u).1 = .ok res →
      (FSink.os (zipResume A env D F (folderSink cfg) V ck k u).2.sink).fs.permAt (namePlace B p) = some x) := by
  obtain ⟨b, hc⟩ := zipResume_calls A env D F (folderSink cfg) V ck k u
  have ha := (zipResume_member A env D F (folderSink cfg) ((lists_unmoved A).climbs _) V ck k u (lists_entry A) hck).log
  have hx' : ∀ ev ∈ (zipResume A env D F (folderSink cfg) V ck k u).2.log, ∀ kd e, ev.about = some (kd, e) → e.path = p → kd = .file ∧ fileMode e = x := by
    intro ev hev kd e he hpe
    obtain ⟨h1, zf, hz, g⟩ := ha ev hev kd e he
    obtain ⟨h2, h3⟩ := hx zf hz (by rw [← g.path, hpe])
    refine ⟨?_, ?_⟩
    · rw [← h1, g.kind]; exact h2
    · rw [← h3, ← g.mode]; exact fileMode_want e
  obtain ⟨o1, o2, o3⟩ := zipResume_opened A env D F (folderSink cfg) V ck k u (fun c hc => by
    obtain ⟨n, h1, h2, _⟩ := (hm c hc).inside
    exact ⟨n, h1, h2⟩)
  have ol := zipResume_links (ok := fun _ _ => True) A env D F (folderSink cfg) V ck k u (fun _ _ _ _ _ _ => trivial) (fun _ _ _ _ _ _ => trivial)
  have ex := fun hb => calls_exact hB hind hc hk (ha.imp fun _ => lists_plan) hp hi hb hx'
  -- the preallocations
  have pre : ck = none → (zipPrepare A ck (zipInit A ck k u : XW (folderSink cfg) V)).1 = none →
      ∃ l2, (zipResume A env D F (folderSink cfg) V ck k u).2.log = ((A.files.map zipFileEntry).filter fun e => e.kind = .file).map (fun e => .prealloc e none) ++ l2 ∧
        ∀ e r, Ev.openW e r ∉ ((A.files.map zipFileEntry).filter fun e => e.kind = .file).map (fun e => Ev.prealloc e none) := by
    intro h1 h2
    subst h1
    obtain ⟨l2, hl⟩ := ol.1.pre
    rcases zipPrealloc_said A.files (zipInit A none k u : XW (folderSink cfg) V) with ⟨_, ⟨a, b⟩ | ⟨_, _, _, _, _, a, _⟩⟩
    · refine ⟨l2, ?_, by intro e r h; simp at h⟩
      rw [← hl]
      show (zipPrealloc A.files (zipInit A none k u : XW (folderSink cfg) V)).2.log ++ l2 = _
      rw [b]
      rfl
    · have h2' : (zipPrealloc A.files (zipInit A none k u : XW (folderSink cfg) V)).1 = none := h2
      rw [a] at h2'
      cases h2'
  have mem : ∃ e, e ∈ (A.files.map zipFileEntry).filter (fun e => e.kind = .file) ∧ e.path = p := by
    obtain ⟨zf, hz, he⟩ := List.mem_map.1 hp
    simp only [Prod.mk.injEq] at he
    exact ⟨zipFileEntry zf, List.mem_filter.2 ⟨List.mem_map.2 ⟨zf, hz, rfl⟩, by simp [he.2]⟩, he.1⟩
  -- without preparation nothing happens
  have dead : ∀ y, (zipPrepare A ck (zipInit A ck k u : XW (folderSink cfg) V)).1 = some y →
      (∀ c a, Ev.save c a ∉ (zipResume A env D F (folderSink cfg) V ck k u).2.log) ∧ y ≠ .stop := by
    intro y hy
    obtain ⟨_, h2⟩ := ol.2 y hy
    rw [h2]
    unfold zipPrepare at hy ⊢
    split
    · rename_i hn
      rw [if_pos hn] at hy
      refine ⟨(zipPrealloc_noSaves A.files _ (by simp [zipInit])).1, ?_⟩
      rcases zipPrealloc_said A.files (zipInit A ck k u : XW (folderSink cfg) V) with ⟨_, ⟨a, _⟩ | ⟨_, _, _, _, _, a, _⟩⟩
      · rw [a] at hy; cases hy
      · rw [a] at hy; cases hy; simp
    · rename_i hn
      rw [if_neg hn] at hy
      cases hy
  have hb : (zipPrepare A ck (zipInit A ck k u : XW (folderSink cfg) V)).1 = none → B <+: namePlace B p := by
    intro h1
    cases ck with
    | some c => exact (hm c rfl).below
    | none =>
      obtain ⟨l2, hl, _⟩ := pre rfl h1
      obtain ⟨e, he, hpe⟩ := mem
      rw [← hpe]
      refine filed_inside hB hc (Or.inr ?_) (by rw [hpe]; exact hi)
      rw [hl]
      exact List.mem_append_left _ (List.mem_map.2 ⟨e, he, rfl⟩)
  -- the file is there
  have there : (zipPrepare A ck (zipInit A ck k u : XW (folderSink cfg) V)).1 = none →
      (FSink.os (zipResume A env D F (folderSink cfg) V ck k u).2.sink).fs.permAt (namePlace B p) ≠ none := by
    intro h1
    cases ck with
    | some c => exact (ex (hb h1)).keep (hm c rfl).there
    | none =>
      obtain ⟨l2, hl, _⟩ := pre rfl h1
      obtain ⟨e, he, hpe⟩ := mem
      refine (ex (hb h1)).pre e ?_ hpe
      rw [hl]
      exact List.mem_append_left _ (List.mem_map.2 ⟨e, he, rfl⟩)
  -- an opened file has the right permissions
  have right : (zipPrepare A ck (zipInit A ck k u : XW (folderSink cfg) V)).1 = none → OpenedIn (zipResume A env D F (folderSink cfg) V ck k u).2.log p →
      (FSink.os (zipResume A env D F (folderSink cfg) V ck k u).2.sink).fs.permAt (namePlace B p) = some x := by
    intro h1 ho

    obtain ⟨e, he, hpe⟩ := ho
    cases ck with
    | some c =>
      obtain ⟨l1, l2, hl⟩ := List.append_of_mem he
      exact (ex (hb h1)).opn l1 e l2 hl hpe (Or.inl (hm c rfl).there)
    | none =>
      obtain ⟨l2, hl, hno⟩ := pre rfl h1
      have he' := he
      rw [hl] at he'
      rcases List.mem_append.1 he' with h | h
      · exact absurd h (hno e none)
      · obtain ⟨l3, l4, hl'⟩ := List.append_of_mem h
        obtain ⟨e', he', hpe'⟩ := mem
        refine (ex (hb h1)).opn _ e l4 (by rw [hl, hl', ← List.append_assoc]) hpe (Or.inr ⟨e', ?_, hpe'⟩)
        exact List.mem_append_left _ (List.mem_map.2 ⟨e', he', rfl⟩)
  -- members before the start
  have early : ∀ j zf, j < startIdx ck → A.files[j]? = some zf → zf.name = p → (FSink.os k).fs.permAt (namePlace B p) = some x := by
    intro j zf hj hz hn
    cases ck with
    | none => simp [startIdx, freshCk] at hj
    | some c =>
      obtain ⟨n, h1, _, h3⟩ := (hm c rfl).inside
      refine h3 j zf ?_ hz hn
      unfold startIdx at hj
      simp only [Option.getD_some] at hj
      omega
  have stay := fun hb => (ex hb).stay
  -- the file called `p` when a run that went on has a checkpoint
  have good : (zipPrepare A ck (zipInit A ck k u : XW (folderSink cfg) V)).1 = none → ∀ c, CkWith A (startIdx ck) c (zipResume A env D F (folderSink cfg) V ck k u).2.log →
      ModeCk B A p x (FSink.os (zipResume A env D F (folderSink cfg) V ck k u).2.sink).fs c := by
    intro h1 c ⟨n, g1, g2, g3⟩
    refine ⟨hb h1, there h1, n, g1, g2, fun j zf hj hz hn => ?_⟩
    by_cases hs : startIdx ck ≤ j
    · exact right h1 (hn ▸ g3 j zf hs hj hz (hx zf (List.mem_of_getElem? hz) hn).1)
    · exact stay (hb h1) (early j zf (by omega) hz hn)
  refine ⟨fun c hcs => ?_, fun hst => ?_, fun c hcm => ?_, fun res hr => ?_⟩
  · obtain ⟨a, hs⟩ := mem_savedCks hcs
    cases h1 : (zipPrepare A ck (zipInit A ck k u : XW (folderSink cfg) V)).1 with
    | some y => exact absurd hs ((dead y h1).1 c a)
    | none => exact good h1 c (o1 c a hs)
  · cases h1 : (zipPrepare A ck (zipInit A ck k u : XW (folderSink cfg) V)).1 with
    | some y =>
      have := (ol.2 y h1).1
      rw [hst] at this
      cases this
      exact absurd rfl (dead _ h1).2
    | none => exact good h1 _ o2
  · obtain ⟨n, g1, g2, g3⟩ := hcm.inside
    exact ⟨hcm.below, (ex hcm.below).keep hcm.there, n, g1, g2, fun j zf hj hz hn => stay hcm.below (g3 j zf hj hz hn)⟩
  · cases h1 : (zipPrepare A ck (zipInit A ck k u : XW (folderSink cfg) V)).1 with
    | some y =>
      have := (ol.2 y h1).1
      rw [hr] at this
      cases this
    | none =>
      obtain ⟨zf, hz, he⟩ := List.mem_map.1 hp
      simp only [Prod.mk.injEq] at he
      obtain ⟨j, hj⟩ := List.getElem?_of_mem hz
      by_cases hs : startIdx ck ≤ j
      · have hlt : j < A.files.length := by
          rcases Nat.lt_or_ge j A.files.length with h | h
          · exact h
          · rw [List.getElem?_eq_none h] at hj; cases hj
        exact right h1 (he.1 ▸ o3 res hr j zf hs hlt hj he.2)
      · exact stay (hb h1) (early j zf (by omega) hj he.1)

/-- What may be resumed from, after any chain of runs. -/
theorem zipChain_exact (hB : cfg.Base B) (hind : Independent cfg B A.plan) {k0 k : (folderSink cfg).St} {hist : List ECkpt}
    (hk : DiskOK (PlanPlace cfg B A.plan) (FSink.os k0).fs) (hi : shouldIgnore p = false) (hp : (p, .file) ∈ A.plan) (hx : Alone A p x)
    (h : ZipAttempts A D F (folderSink cfg) k0 hist k) : ∀ c ∈ hist, ModeCk B A p x (FSink.os k).fs c := by
  have pick : ∀ {hist before : List ECkpt} {ck : Option ECkpt} {fs : FS}, (∀ c ∈ hist, ModeCk B A p x fs c) → ChooseCk hist ck before →
      (∀ c, ck = some c → ModeCk B A p x fs c) ∧ ∀ c ∈ before, ModeCk B A p x fs c := by
    intro hist before ck fs h hc
    cases hc with
    | fresh => exact ⟨by simp, by simp⟩
    | @pick a b c he =>
      subst he
      refine ⟨fun c' h' => by cases h'; exact h c (by simp), fun c' h' => h c' ?_⟩
      simp at h' ⊢
      rcases h' with h' | h'
      · exact Or.inl h'
      · exact Or.inr (Or.inl h')
  induction h with
  | refl => simp
  | @step hist ck before k1 k2 env V u he hz hc hn ih =>
    obtain ⟨p1, p2⟩ := pick ih hc
    obtain ⟨r1, _, r3, _⟩ := zipRun_exact (D := D) (F := F) hB hind env V u ck k1 (zipChain_perm hB hind hk hz).1 (chosen_lists hz hc) hi hp hx p1
    rw [next_os hn]
    intro c hm
    rcases List.mem_append.1 hm with hm | hm
    · exact r3 c (p2 c hm)
    · exact r1 c hm
  | @kept hist ck before k1 k2 env V u he hz hc hs hn ih =>
    obtain ⟨p1, _⟩ := pick ih hc
    obtain ⟨_, r2, _, _⟩ := zipRun_exact (D := D) (F := F) hB hind env V u ck k1 (zipChain_perm hB hind hk hz).1 (chosen_lists hz hc) hi hp hx p1
    rw [next_os hn]
    intro c hm
    rw [List.mem_singleton.1 hm]
    exact r2 hs

end
end Savior
