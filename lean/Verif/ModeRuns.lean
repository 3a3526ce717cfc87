import Verif.FolderModes
import Verif.Members
import Verif.Opened
import Verif.Links
/-!
# Permissions over whole extractions
-/

namespace Savior
open FSink

section
variable {cfg : FCfg} {B : Path} {plan : List (Str × Kind)}

/-- What an operation on an entry does to the planned places. -/
structure Touch (cfg : FCfg) (B : Path) (S : Path → Kind → Prop) (e : Entry) (fs fs' : FS) : Prop where
  disk : DiskOK S fs'
  eff : fs' = fs ∨ (shouldIgnore e.path = false ∧ B <+: namePlace B e.path ∧ Keeps S (namePlace B e.path) fs fs' ∧
    Perm S (namePlace B e.path) (fileMode e) (looseMode cfg e) fs fs')

theorem Touch.none {S : Path → Kind → Prop} {e : Entry} {fs : FS} (h : DiskOK S fs) : Touch cfg B S e fs fs := ⟨h, Or.inl rfl⟩

/-- Files at places of other names stay, with their permissions. -/
theorem Touch.other {e : Entry} {fs fs' : FS} (hind : Independent cfg B plan) (h : Touch cfg B (PlanPlace cfg B plan) e fs fs') (he : (e.path, e.kind) ∈ plan)
    {p : Str} (hp : (p, .file) ∈ plan) (hi : shouldIgnore p = false) (hb : B <+: namePlace B p) (hne : p ≠ e.path) {m : Nat}
    (hm : fs.permAt (namePlace B p) = some m) : fs'.permAt (namePlace B p) = some m := by
  have hL : PlanPlace cfg B plan (namePlace B p) .file := ⟨p, hp, hi, hb, rfl⟩
  rcases h.eff with rfl | ⟨h1, h2, h3, h4⟩
  · exact hm
  · have hQ := (hind _ hp _ he hi h1 hb h2 hne).1
    obtain ⟨c, hc⟩ := permAt_holds.1 (by rw [hm]; simp)
    have hh := permAt_holds.2 ⟨c, h3 _ _ _ hL hQ hc⟩
    cases hm' : fs'.permAt (namePlace B p) with
    | none => exact absurd hm' hh
    | some m' =>
      rcases h4 _ hL m' hm' with e1 | ⟨e1, _⟩
      · rw [e1] at hm; exact hm
      · exact absurd e1 hQ

/-- A file's permissions are as before or as the entry says. -/
theorem Touch.perm {S : Path → Kind → Prop} {e : Entry} {fs fs' : FS} (h : Touch cfg B S e fs fs') {L : Path} (hL : S L .file) {m : Nat}
    (hm : fs'.permAt L = some m) : fs.permAt L = some m ∨ (shouldIgnore e.path = false ∧ L = namePlace B e.path ∧ (m = fileMode e ∨ m = looseMode cfg e)) := by
  rcases h.eff with rfl | ⟨h1, _, _, h4⟩
  · exact Or.inl hm
  · rcases h4 L hL m hm with a | ⟨a, b | ⟨_, b⟩⟩
    · exact Or.inl a
    · exact Or.inr ⟨h1, a, Or.inl b⟩
    · exact Or.inr ⟨h1, a, Or.inr b⟩

variable (hB : cfg.Base B) (hind : Independent cfg B plan)
include hB hind

theorem mkdir_touch {e : Entry} {s : FSink} (he : (e.path, e.kind) ∈ plan) (hk : e.kind = .dir) (h : DiskOK (PlanPlace cfg B plan) s.os.fs) :
    Touch cfg B (PlanPlace cfg B plan) e s.os.fs (s.mkdir cfg e).2.os.fs := by
  cases hi : shouldIgnore e.path with
  | true => unfold mkdir; rw [hi]; exact .none h
  | false =>
    cases hd : cfg.destPath e.path with
    | error x => unfold mkdir; rw [hi, hd]; exact .none h
    | ok dst =>
      obtain ⟨a, b⟩ := dest_place hB hd
      have hQ : PlanPlace cfg B plan (namePlace B e.path) .dir := ⟨_, hk ▸ he, hi, b, rfl⟩
      obtain ⟨d1, d2, _⟩ := mkdir_disk (planned hB hind) hi h hd a hQ
      obtain ⟨f1, f2⟩ := mkdir_fewer cfg e s
      exact ⟨d1, Or.inr ⟨hi, b, d2, Perm.fewer f1 f2⟩⟩

theorem symlink_touch {e : Entry} {t : Str} {s : FSink} (he : (e.path, e.kind) ∈ plan) (hk : e.kind = .symlink) (h : DiskOK (PlanPlace cfg B plan) s.os.fs) :
    Touch cfg B (PlanPlace cfg B plan) e s.os.fs (s.symlink cfg e t).2.os.fs := by
  cases hi : shouldIgnore e.path with
  | true => unfold symlink; rw [hi]; exact .none h
  | false =>
    cases hd : cfg.destPath e.path with
    | error x => unfold symlink; rw [hi, hd]; exact .none h
    | ok dst =>
      obtain ⟨a, b⟩ := dest_place hB hd
      have hQ : PlanPlace cfg B plan (namePlace B e.path) .symlink := ⟨_, hk ▸ he, hi, b, rfl⟩
      obtain ⟨d1, d2, _⟩ := symlink_disk (t := t) (planned hB hind) hi h hd a hQ
      obtain ⟨f1, f2⟩ := symlink_fewer cfg e t s
      exact ⟨d1, Or.inr ⟨hi, b, d2, Perm.fewer f1 f2⟩⟩

theorem prealloc_touch {e : Entry} {s : FSink} (he : (e.path, e.kind) ∈ plan) (hk : e.kind = .file) (h : DiskOK (PlanPlace cfg B plan) s.os.fs) :
    Touch cfg B (PlanPlace cfg B plan) e s.os.fs (s.preallocate cfg e).2.os.fs ∧
    (shouldIgnore e.path = false → s.os.fs.permAt (namePlace B e.path) ≠ none ∨ (s.preallocate cfg e).1 = none →
      (s.preallocate cfg e).2.os.fs.permAt (namePlace B e.path) ≠ none) := by
  cases hi : shouldIgnore e.path with
  | true => unfold preallocate; rw [hi]; exact ⟨.none h, by simp⟩
  | false =>
    cases hd : cfg.destPath e.path with
    | error x =>
      have : s.preallocate cfg e = (some (.wrapped x), s) := by
        unfold preallocate
        simp only [hi, Bool.false_eq_true, if_false]
        rw [createFile_refused hd]
      rw [this]
      exact ⟨.none h, fun _ hh => hh.elim id (by simp)⟩
    | ok dst =>
      obtain ⟨a, b⟩ := dest_place hB hd
      have hQ : PlanPlace cfg B plan (namePlace B e.path) .file := ⟨_, hk ▸ he, hi, b, rfl⟩
      obtain ⟨p1, p2, p3, p4⟩ := preallocate_perm (planned hB hind) hi h hd a hQ
      exact ⟨⟨preallocate_disk (planned hB hind) h hd a hQ, Or.inr ⟨hi, b, p2, p1⟩⟩, fun _ hh => hh.elim p3 p4⟩

theorem open_touch {e : Entry} {s : FSink} (he : (e.path, e.kind) ∈ plan) (hk : e.kind = .file) (h : DiskOK (PlanPlace cfg B plan) s.os.fs) :
    Touch cfg B (PlanPlace cfg B plan) e s.os.fs (s.getWriter cfg e).2.os.fs ∧
    (shouldIgnore e.path = false → s.os.fs.permAt (namePlace B e.path) ≠ none → (s.getWriter cfg e).2.os.fs.permAt (namePlace B e.path) ≠ none ∧
      ((s.getWriter cfg e).1 = none → (s.getWriter cfg e).2.os.fs.permAt (namePlace B e.path) = some (fileMode e))) := by
  cases hi : shouldIgnore e.path with
  | true => rw [getWriter_ignored (s := s) hi]; exact ⟨.none h, by simp⟩
  | false =>
    cases hd : cfg.destPath e.path with
    | error x => rw [getWriter_refused (s := s) hi hd]; exact ⟨.none h, fun _ hh => ⟨hh, by simp⟩⟩
    | ok dst =>
      obtain ⟨a, b⟩ := dest_place hB hd
      have hQ : PlanPlace cfg B plan (namePlace B e.path) .file := ⟨_, hk ▸ he, hi, b, rfl⟩
      obtain ⟨d1, d2, _, _⟩ := getWriter_disk (planned hB hind) hi h hd a hQ
      obtain ⟨p1, p2, p3⟩ := getWriter_perm (planned hB hind) hi h hd a hQ
      exact ⟨⟨d1, Or.inr ⟨hi, b, d2, p1⟩⟩, fun _ hh => ⟨p2 hh, fun ho => p3 ho hh⟩⟩

end

/-- Writing to, syncing and closing writers changes no permissions and moves no files. -/
theorem writer_quiet (cfg : FCfg) (s : FSink) : (∀ k bs, (s.writeAt cfg k bs).2.os.fs.nodes = s.os.fs.nodes ∧ (s.writeAt cfg k bs).2.os.fs.mode = s.os.fs.mode ∧
      (s.writeAt cfg k bs).2.os.fs.next = s.os.fs.next) ∧
    (∀ k, (s.syncAt cfg k).2.os.fs = s.os.fs) ∧ (∀ k, (s.closeAt cfg k).2.os.fs = s.os.fs) := by
  refine ⟨fun k bs => ?_, fun k => ?_, fun k => (closeAt_fs cfg k s).1⟩
  · unfold writeAt
    split
    · rename_i i o _
      simp only
      unfold OS.write
      split <;> exact ⟨rfl, rfl, rfl⟩
    · exact ⟨rfl, rfl, rfl⟩
    · exact ⟨rfl, rfl, rfl⟩
    · exact ⟨rfl, rfl, rfl⟩
  · unfold syncAt
    split
    · exact quietCall_fs cfg.flt s.os
    · rfl
    · rfl
    · rfl

theorem permAt_congr {fs fs' : FS} (hn : fs'.nodes = fs.nodes) (hm : fs'.mode = fs.mode) : fs'.permAt = fs.permAt := by
  funext L; unfold FS.permAt; rw [hn, hm]

/-- The entries files were created or opened for. -/
def FileCall (log : List Ev) (e : Entry) : Prop := ∃ r, Ev.prealloc e r ∈ log ∨ Ev.openW e r ∈ log

section
variable {cfg : FCfg} {B : Path} {plan : List (Str × Kind)}

/-- The calls on a `FolderSink` and permissions: those of files at planned places come from the calls' entries. -/
theorem calls_perm (hB : cfg.Base B) (hind : Independent cfg B plan) {tidy b : Bool} {k s : (folderSink cfg).St} {log : List Ev}
    (h : Calls (folderSink cfg) tidy k b log s) (hk : DiskOK (PlanPlace cfg B plan) (FSink.os k).fs) (ha : AboutOK (fun e => (e.path, e.kind) ∈ plan) log) :
    DiskOK (PlanPlace cfg B plan) (FSink.os s).fs ∧
    (∀ L, PlanPlace cfg B plan L .file → ∀ m, (FSink.os s).fs.permAt L = some m → (FSink.os k).fs.permAt L = some m ∨
      ∃ e, FileCall log e ∧ shouldIgnore e.path = false ∧ L = namePlace B e.path ∧ (m = fileMode e ∨ m = looseMode cfg e)) := by
  have sub : ∀ {l : List Ev} {ev : Ev}, AboutOK (fun e => (e.path, e.kind) ∈ plan) (l ++ [ev]) → AboutOK (fun e => (e.path, e.kind) ∈ plan) l :=
    fun h ev hm => h ev (List.mem_append_left _ hm)
  have lastOne : ∀ {l : List Ev} {ev : Ev}, AboutOK (fun e => (e.path, e.kind) ∈ plan) (l ++ [ev]) → ∀ kd e, ev.about = some (kd, e) → e.kind = kd ∧ (e.path, e.kind) ∈ plan :=
    fun h => h _ (List.mem_append_right _ (List.mem_singleton.2 rfl))
  have fc : ∀ {l : List Ev} {ev : Ev} {e : Entry}, FileCall l e → FileCall (l ++ [ev]) e :=
    fun ⟨r, h⟩ => ⟨r, h.imp (List.mem_append_left _) (List.mem_append_left _)⟩
  have lift : ∀ {l : List Ev} {ev : Ev} {fs fs' : FS}, fs'.permAt = fs.permAt →
      (∀ L, PlanPlace cfg B plan L .file → ∀ m, fs.permAt L = some m → (FSink.os k).fs.permAt L = some m ∨
        ∃ e, FileCall l e ∧ shouldIgnore e.path = false ∧ L = namePlace B e.path ∧ (m = fileMode e ∨ m = looseMode cfg e)) →
      (∀ L, PlanPlace cfg B plan L .file → ∀ m, fs'.permAt L = some m → (FSink.os k).fs.permAt L = some m ∨
        ∃ e, FileCall (l ++ [ev]) e ∧ shouldIgnore e.path = false ∧ L = namePlace B e.path ∧ (m = fileMode e ∨ m = looseMode cfg e)) := by
    intro l ev fs fs' hp h L hL m hm
    rw [hp] at hm
    exact (h L hL m hm).imp id fun ⟨e, h1, h2⟩ => ⟨e, fc h1, h2⟩
  -- operations putting no file
  have fewer : ∀ {l : List Ev} {ev : Ev} {fs fs' : FS}, Fewer fs fs' →
      (∀ L, PlanPlace cfg B plan L .file → ∀ m, fs.permAt L = some m → (FSink.os k).fs.permAt L = some m ∨
        ∃ e, FileCall l e ∧ shouldIgnore e.path = false ∧ L = namePlace B e.path ∧ (m = fileMode e ∨ m = looseMode cfg e)) →
      (∀ L, PlanPlace cfg B plan L .file → ∀ m, fs'.permAt L = some m → (FSink.os k).fs.permAt L = some m ∨
        ∃ e, FileCall (l ++ [ev]) e ∧ shouldIgnore e.path = false ∧ L = namePlace B e.path ∧ (m = fileMode e ∨ m = looseMode cfg e)) := by
    intro l ev fs fs' hf h L hL m hm
    obtain ⟨i, hi, hmi⟩ := permAt_some hm
    have : fs.permAt L = some m := by rw [permAt_file (hf.2 L i hi), ← hf.1, hmi]
    exact (h L hL m this).imp id fun ⟨e, h1, h2⟩ => ⟨e, fc h1, h2⟩
  -- operations on a file
  have file : ∀ {l : List Ev} {ev : Ev} {e : Entry} {fs fs' : FS}, Touch cfg B (PlanPlace cfg B plan) e fs fs' → FileCall (l ++ [ev]) e →
      (∀ L, PlanPlace cfg B plan L .file → ∀ m, fs.permAt L = some m → (FSink.os k).fs.permAt L = some m ∨
        ∃ e, FileCall l e ∧ shouldIgnore e.path = false ∧ L = namePlace B e.path ∧ (m = fileMode e ∨ m = looseMode cfg e)) →
      (∀ L, PlanPlace cfg B plan L .file → ∀ m, fs'.permAt L = some m → (FSink.os k).fs.permAt L = some m ∨
        ∃ e, FileCall (l ++ [ev]) e ∧ shouldIgnore e.path = false ∧ L = namePlace B e.path ∧ (m = fileMode e ∨ m = looseMode cfg e)) := by
    intro l ev e fs fs' ht hc h L hL m hm
    rcases ht.perm hL hm with a | ⟨a1, a2, a3⟩
    · exact (h L hL m a).imp id fun ⟨e, h1, h2⟩ => ⟨e, fc h1, h2⟩
    · exact Or.inr ⟨e, hc, a1, a2, a3⟩
  induction h with
  | start => exact ⟨hk, fun L _ m hm => Or.inl hm⟩
  | note ev _ _ ih => exact ⟨(ih (sub ha)).1, lift rfl (ih (sub ha)).2⟩
  | @prealloc b l s e _ ih =>
    obtain ⟨d, p⟩ := ih (sub ha)
    obtain ⟨k1, k2⟩ := lastOne ha .file e rfl
    have t := (prealloc_touch hB hind (s := s) k2 k1 d).1
    exact ⟨t.disk, file t ⟨_, Or.inl (List.mem_append_right _ (List.mem_singleton.2 rfl))⟩ p⟩
  | @mkdir b l s e _ ih =>
    obtain ⟨d, p⟩ := ih (sub ha)
    obtain ⟨k1, k2⟩ := lastOne ha .dir e rfl
    have t := mkdir_touch hB hind (s := s) k2 k1 d
    exact ⟨t.disk, fewer (mkdir_fewer cfg e s) p⟩
  | @symlink b l s e tgt _ ih =>
    obtain ⟨d, p⟩ := ih (sub ha)
    obtain ⟨k1, k2⟩ := lastOne ha .symlink e rfl
    have t := symlink_touch hB hind (t := tgt) (s := s) k2 k1 d
    exact ⟨t.disk, fewer (symlink_fewer cfg e tgt s) p⟩
  | @opened b l s e _ _ hg ih =>
    obtain ⟨d, p⟩ := ih (sub ha)
    obtain ⟨k1, k2⟩ := lastOne ha .file e rfl
    have t := (open_touch hB hind (s := s) k2 k1 d).1
    exact ⟨t.disk, file t ⟨_, Or.inr (List.mem_append_right _ (List.mem_singleton.2 rfl))⟩ p⟩
  | @refused b l s e x _ _ hg ih =>
    obtain ⟨d, p⟩ := ih (sub ha)
    obtain ⟨k1, k2⟩ := lastOne ha .file e rfl
    have t := (open_touch hB hind (s := s) k2 k1 d).1
    exact ⟨t.disk, file t ⟨_, Or.inr (List.mem_append_right _ (List.mem_singleton.2 rfl))⟩ p⟩
  | @write l s bs _ ih =>
    obtain ⟨d, p⟩ := ih (sub ha)
    obtain ⟨w1, w2, w3⟩ := (writer_quiet cfg s).1 (FSink.ws s).length.pred bs
    exact ⟨d.same w1 w3, lift (permAt_congr w1 w2) p⟩
  | @sync l s _ ih =>
    obtain ⟨d, p⟩ := ih (sub ha)
    have w := (writer_quiet cfg s).2.1 (FSink.ws s).length.pred
    have w' : (FSink.os ((folderSink cfg).sync s).2).fs = (FSink.os s).fs := w
    exact ⟨w' ▸ d, lift (by rw [w']) p⟩
  | @close l s _ ih =>
    obtain ⟨d, p⟩ := ih ha
    have w := (writer_quiet cfg s).2.2 (FSink.ws s).length.pred
    have w' : (FSink.os ((folderSink cfg).closeWriter s)).fs = (FSink.os s).fs := w
    rw [w']
    exact ⟨d, p⟩

/-- What the calls so far did to the file called `p`, whose entries all ask for the permissions `x`. -/
structure ExactSt (B : Path) (p : Str) (x : Nat) (k : FS) (log : List Ev) (s : FS) : Prop where
  keep : k.permAt (namePlace B p) ≠ none → s.permAt (namePlace B p) ≠ none
  pre : ∀ e, Ev.prealloc e none ∈ log → e.path = p → s.permAt (namePlace B p) ≠ none
  stay : k.permAt (namePlace B p) = some x → s.permAt (namePlace B p) = some x
  opn : ∀ l1 e l2, log = l1 ++ Ev.openW e none :: l2 → e.path = p →
    k.permAt (namePlace B p) ≠ none ∨ (∃ e', Ev.prealloc e' none ∈ l1 ∧ e'.path = p) → s.permAt (namePlace B p) = some x

theorem snoc_at {α : Type} {l l1 l2 : List α} {a b : α} (h : l ++ [a] = l1 ++ b :: l2) : (l2 = [] ∧ a = b ∧ l = l1) ∨ ∃ l2', l2 = l2' ++ [a] ∧ l = l1 ++ b :: l2' := by
  rcases List.eq_nil_or_concat l2 with rfl | ⟨l2', c, rfl⟩
  · have := List.append_inj' h rfl
    simp at this
    exact Or.inl ⟨rfl, this.2, this.1⟩
  · rw [List.concat_eq_append] at h
    have h' : l ++ [a] = (l1 ++ b :: l2') ++ [c] := by rw [h]; simp
    have := List.append_inj' h' rfl
    simp at this
    exact Or.inr ⟨l2', by simp [this.2], this.1⟩

/-- A step under which the file called `p` stays as it is, and which is not a successful call for it. -/
theorem ExactSt.next {p : Str} {x : Nat} {k s s' : FS} {log : List Ev} {ev : Ev} (h : ExactSt B p x k log s)
    (hs : ∀ m, s.permAt (namePlace B p) = some m → s'.permAt (namePlace B p) = some m)
    (h1 : ∀ e, ev = .prealloc e none → e.path ≠ p) (h2 : ∀ e, ev = .openW e none → e.path ≠ p) : ExactSt B p x k (log ++ [ev]) s' := by
  have hs' : s.permAt (namePlace B p) ≠ none → s'.permAt (namePlace B p) ≠ none := by
    intro hne
    cases hm : s.permAt (namePlace B p) with
    | none => exact absurd hm hne
    | some m => rw [hs m hm]; simp
  refine ⟨fun a => hs' (h.keep a), fun e hm hp => ?_, fun a => hs _ (h.stay a), fun l1 e l2 hl hp hh => ?_⟩
  · rcases List.mem_append.1 hm with hm | hm
    · exact hs' (h.pre e hm hp)
    · exact absurd hp (h1 e (List.mem_singleton.1 hm).symm)
  · rcases snoc_at hl with ⟨_, e2, _⟩ | ⟨l2', _, e2⟩
    · exact absurd hp (h2 e e2)
    · exact hs _ (h.opn l1 e l2' e2 hp hh)

theorem calls_exact (hB : cfg.Base B) (hind : Independent cfg B plan) {tidy b : Bool} {k s : (folderSink cfg).St} {log : List Ev}
    (h : Calls (folderSink cfg) tidy k b log s) (hk : DiskOK (PlanPlace cfg B plan) (FSink.os k).fs) (ha : AboutOK (fun e => (e.path, e.kind) ∈ plan) log)
    {p : Str} {x : Nat} (hp : (p, .file) ∈ plan) (hi : shouldIgnore p = false) (hb : B <+: namePlace B p)
    (hx : ∀ ev ∈ log, ∀ kd e, ev.about = some (kd, e) → e.path = p → kd = .file ∧ fileMode e = x) : ExactSt B p x (FSink.os k).fs log (FSink.os s).fs := by
  have sub : ∀ {l : List Ev} {ev : Ev}, AboutOK (fun e => (e.path, e.kind) ∈ plan) (l ++ [ev]) → AboutOK (fun e => (e.path, e.kind) ∈ plan) l :=
    fun h ev hm => h ev (List.mem_append_left _ hm)
  have lastOne : ∀ {l : List Ev} {ev : Ev}, AboutOK (fun e => (e.path, e.kind) ∈ plan) (l ++ [ev]) → ∀ kd e, ev.about = some (kd, e) → e.kind = kd ∧ (e.path, e.kind) ∈ plan :=
    fun h => h _ (List.mem_append_right _ (List.mem_singleton.2 rfl))
  have subx : ∀ {l : List Ev} {ev : Ev}, (∀ ev' ∈ l ++ [ev], ∀ kd e, ev'.about = some (kd, e) → e.path = p → kd = .file ∧ fileMode e = x) →
      (∀ ev' ∈ l, ∀ kd e, ev'.about = some (kd, e) → e.path = p → kd = .file ∧ fileMode e = x) := fun h ev hm => h ev (List.mem_append_left _ hm)
  have lastx : ∀ {l : List Ev} {ev : Ev}, (∀ ev' ∈ l ++ [ev], ∀ kd e, ev'.about = some (kd, e) → e.path = p → kd = .file ∧ fileMode e = x) →
      ∀ kd e, ev.about = some (kd, e) → e.path = p → kd = .file ∧ fileMode e = x := fun h => h _ (List.mem_append_right _ (List.mem_singleton.2 rfl))
  have hL : PlanPlace cfg B plan (namePlace B p) .file := ⟨p, hp, hi, hb, rfl⟩
  -- a call for this very name
  have here : ∀ {l : List Ev} {ev : Ev} {e : Entry} {fs fs' : FS}, ExactSt B p x (FSink.os k).fs l fs → Touch cfg B (PlanPlace cfg B plan) e fs fs' →
      fileMode e = x → (fs.permAt (namePlace B p) ≠ none → fs'.permAt (namePlace B p) ≠ none) →
      (∀ e, ev = .prealloc e none → fs'.permAt (namePlace B p) ≠ none) →
      (∀ e, ev = .openW e none → fs.permAt (namePlace B p) ≠ none → fs'.permAt (namePlace B p) = some x) →
      ExactSt B p x (FSink.os k).fs (l ++ [ev]) fs' := by
    intro l ev e fs fs' h ht hm h1 h2 h3
    have ex : fs.permAt (namePlace B p) = some x → fs'.permAt (namePlace B p) = some x := by
      intro hf
      cases hm' : fs'.permAt (namePlace B p) with
      | none => exact absurd hm' (h1 (by rw [hf]; simp))
      | some m' =>
        rcases ht.eff with rfl | ⟨_, _, _, q⟩
        · rw [hf] at hm'; cases hm'; rfl
        · rcases q _ hL m' hm' with a | ⟨a, b | ⟨b, _⟩⟩
          · rw [hf] at a; exact a.symm
          · rw [b, hm]
          · rw [← a, hf] at b; cases b
    refine ⟨fun a => h1 (h.keep a), fun e' hm' hp' => ?_, fun a => ex (h.stay a), fun l1 e' l2 hl hp' hh => ?_⟩
    · rcases List.mem_append.1 hm' with hm' | hm'
      · exact h1 (h.pre e' hm' hp')
      · exact h2 e' (List.mem_singleton.1 hm').symm
    · rcases snoc_at hl with ⟨_, e2, e3⟩ | ⟨l2', _, e2⟩
      · refine h3 e' e2 ?_
        rcases hh with hh | ⟨e'', m1, m2⟩
        · exact h.keep hh
        · exact h.pre e'' (e3 ▸ m1) m2
      · exact ex (h.opn l1 e' l2' e2 hp' hh)
  induction h with
  | start =>
    refine ⟨id, fun e hm => (by simp at hm), id, fun l1 e l2 hl => ?_⟩
    simp at hl
  | note ev _ hn ih =>
    refine (ih (sub ha) (subx hx)).next (fun _ => id) ?_ ?_
    · rintro e rfl; simp [Ev.noted] at hn
    · rintro e rfl; simp [Ev.noted] at hn
  | @prealloc b l s e hc ih =>
    have d := (calls_perm hB hind hc hk (sub ha)).1
    obtain ⟨k1, k2⟩ := lastOne ha .file e rfl
    obtain ⟨t1, t2⟩ := prealloc_touch hB hind (s := s) k2 k1 d
    by_cases hpe : p = e.path
    · have hi' : shouldIgnore e.path = false := hpe ▸ hi
      refine here (ih (sub ha) (subx hx)) t1 (lastx hx .file e rfl hpe.symm).2 (fun hh => ?_) (fun e' he => ?_) (by simp)
      · rw [hpe] at hh ⊢; exact t2 hi' (Or.inl hh)
      · rw [hpe]
        simp only [Ev.prealloc.injEq] at he
        exact t2 hi' (Or.inr he.2)
    · exact (ih (sub ha) (subx hx)).next (fun m hm => t1.other hind k2 hp hi hb hpe hm)
        (by intro e' he; simp only [Ev.prealloc.injEq] at he; rw [← he.1]; exact fun h => hpe h.symm) (by simp)
  | @mkdir b l s e hc ih =>
    have d := (calls_perm hB hind hc hk (sub ha)).1
    obtain ⟨k1, k2⟩ := lastOne ha .dir e rfl
    have t1 := mkdir_touch hB hind (s := s) k2 k1 d
    have hpe : p ≠ e.path := fun h => by cases (lastx hx .dir e rfl h.symm).1
    exact (ih (sub ha) (subx hx)).next (fun m hm => t1.other hind k2 hp hi hb hpe hm) (by simp) (by simp)
  | @symlink b l s e tgt hc ih =>
    have d := (calls_perm hB hind hc hk (sub ha)).1
    obtain ⟨k1, k2⟩ := lastOne ha .symlink e rfl
    have t1 := symlink_touch hB hind (t := tgt) (s := s) k2 k1 d
    have hpe : p ≠ e.path := fun h => by cases (lastx hx .symlink e rfl h.symm).1
    exact (ih (sub ha) (subx hx)).next (fun m hm => t1.other hind k2 hp hi hb hpe hm) (by simp) (by simp)
  | @opened b l s e hc _ hg ih =>
    have d := (calls_perm hB hind hc hk (sub ha)).1
    obtain ⟨k1, k2⟩ := lastOne ha .file e rfl
    obtain ⟨t1, t2⟩ := open_touch hB hind (s := s) k2 k1 d
    by_cases hpe : p = e.path
    · have hi' : shouldIgnore e.path = false := hpe ▸ hi
      have hm := (lastx hx .file e rfl hpe.symm).2
      refine here (ih (sub ha) (subx hx)) t1 hm (fun hh => ?_) (by simp) (fun e' he hh => ?_)
      · rw [hpe] at hh ⊢; exact (t2 hi' hh).1
      · rw [hpe] at hh ⊢; rw [← hm]; exact (t2 hi' hh).2 hg
    · exact (ih (sub ha) (subx hx)).next (fun m hm => t1.other hind k2 hp hi hb hpe hm) (by simp)
        (by intro e' he; simp only [Ev.openW.injEq] at he; rw [← he.1]; exact fun h => hpe h.symm)
  | @refused b l s e x' hc _ hg ih =>
    have d := (calls_perm hB hind hc hk (sub ha)).1
    obtain ⟨k1, k2⟩ := lastOne ha .file e rfl
    obtain ⟨t1, t2⟩ := open_touch hB hind (s := s) k2 k1 d
    by_cases hpe : p = e.path
    · have hi' : shouldIgnore e.path = false := hpe ▸ hi
      refine here (ih (sub ha) (subx hx)) t1 (lastx hx .file e rfl hpe.symm).2 (fun hh => ?_) (by simp) (by simp)
      rw [hpe] at hh ⊢; exact (t2 hi' hh).1
    · exact (ih (sub ha) (subx hx)).next (fun m hm => t1.other hind k2 hp hi hb hpe hm) (by simp) (by simp)
  | @write l s bs _ ih =>
    obtain ⟨w1, w2, w3⟩ := (writer_quiet cfg s).1 (FSink.ws s).length.pred bs
    have w' : (FSink.os ((folderSink cfg).write bs s).2).fs.permAt = (FSink.os s).fs.permAt := permAt_congr w1 w2
    exact (ih (sub ha) (subx hx)).next (fun m hm => by rw [w']; exact hm) (by simp) (by simp)
  | @sync l s _ ih =>
    have w := (writer_quiet cfg s).2.1 (FSink.ws s).length.pred
    have w' : (FSink.os ((folderSink cfg).sync s).2).fs = (FSink.os s).fs := w
    exact (ih (sub ha) (subx hx)).next (fun m hm => by rw [w']; exact hm) (by simp) (by simp)
  | @close l s _ ih =>
    have w := (writer_quiet cfg s).2.2 (FSink.ws s).length.pred
    have w' : (FSink.os ((folderSink cfg).closeWriter s)).fs = (FSink.os s).fs := w
    rw [w']
    exact ih ha hx

end
end Savior
