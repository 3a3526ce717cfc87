import Verif.Handles
import Verif.Props.Extraction
/-!
# File descriptors (C77)
-/

namespace Savior

open FSink

/-- The number of writers that are open. -/
def openWriters (s : FSink) : Nat := s.ws.countP fun | .real _ _ true => true | _ => false

/-- Calls that open a file. -/
def FOp.opens : FOp → Bool
  | .getWriter _ => true
  | .prealloc _ => true
  | _ => false

/-- How many calls of `GetWriter` and `Preallocate` failed. -/
def failedOpens (cfg : FCfg) : List FOp → FSink → Nat
  | [], _ => 0
  | op :: ops, s => (if op.opens ∧ (op.run cfg s).1 ≠ none then 1 else 0) + failedOpens cfg ops (op.run cfg s).2

theorem createFileH_erase (cfg : FCfg) (e : Entry) (s : OS) : (createFileH cfg e s).1 = (createFile cfg e s).1 ∧ (createFileH cfg e s).2.1 = (createFile cfg e s).2 := by
  cases hd : cfg.destPath e.path with
  | error x => simp only [createFileH, createFile, hd, and_self]
  | ok dst =>
    cases hm : (s.mkdirAll cfg.flt (names dst).dropLast).1 with
    | some x => simp only [createFileH, createFile, hd, hm, and_self]
    | none =>
      have tail : ∀ (r : Option Err × OS), ∀ x y, x = (match r.1 with
          | some x => ((.error (.wrapped x), r.2, 0) : Except Err Nat × OS × Int)
          | none =>
            match (r.2.openCreate cfg.flt cfg.umask (names dst) (fileMode e)).1 with
            | .error x => (.error (.wrapped x), (r.2.openCreate cfg.flt cfg.umask (names dst) (fileMode e)).2, 0)
            | .ok i =>
              match ((r.2.openCreate cfg.flt cfg.umask (names dst) (fileMode e)).2.chmod cfg.flt i (fileMode e)).1 with
              | some x => (.error (.wrapped x), ((r.2.openCreate cfg.flt cfg.umask (names dst) (fileMode e)).2.chmod cfg.flt i (fileMode e)).2, 1)
              | none => (.ok i, ((r.2.openCreate cfg.flt cfg.umask (names dst) (fileMode e)).2.chmod cfg.flt i (fileMode e)).2, 1)) →
          y = (match r.1 with
          | some x => ((.error (.wrapped x), r.2) : Except Err Nat × OS)
          | none =>
            match (r.2.openCreate cfg.flt cfg.umask (names dst) (fileMode e)).1 with
            | .error x => (.error (.wrapped x), (r.2.openCreate cfg.flt cfg.umask (names dst) (fileMode e)).2)
            | .ok i =>
              match ((r.2.openCreate cfg.flt cfg.umask (names dst) (fileMode e)).2.chmod cfg.flt i (fileMode e)).1 with
              | some x => (.error (.wrapped x), ((r.2.openCreate cfg.flt cfg.umask (names dst) (fileMode e)).2.chmod cfg.flt i (fileMode e)).2)
              | none => (.ok i, ((r.2.openCreate cfg.flt cfg.umask (names dst) (fileMode e)).2.chmod cfg.flt i (fileMode e)).2)) →
          x.1 = y.1 ∧ x.2.1 = y.2 := by
        intro r x y hx hy
        subst hx hy
        cases hr1 : r.1 with
        | some x => exact ⟨rfl, rfl⟩
        | none =>
          dsimp only
          cases ho : (r.2.openCreate cfg.flt cfg.umask (names dst) (fileMode e)).1 with
          | error x => exact ⟨rfl, rfl⟩
          | ok i =>
            dsimp only
            cases hc : ((r.2.openCreate cfg.flt cfg.umask (names dst) (fileMode e)).2.chmod cfg.flt i (fileMode e)).1 <;> exact ⟨rfl, rfl⟩
      obtain ⟨st, hst⟩ : ∃ st, (s.mkdirAll cfg.flt (names dst).dropLast).2.fs.lstat (names dst) = st := ⟨_, rfl⟩
      simp only [createFileH, createFile, hd, hm, hst]
      match st with
      | .found i' (.link t) => exact tail ((s.mkdirAll cfg.flt (names dst).dropLast).2.removeAll cfg.flt (names dst)) _ _ rfl rfl
      | .found i' .dir => exact tail (none, (s.mkdirAll cfg.flt (names dst).dropLast).2) _ _ rfl rfl
      | .found i' (.file _) => exact tail (none, (s.mkdirAll cfg.flt (names dst).dropLast).2) _ _ rfl rfl
      | .absent _ | .bad _ =>
        dsimp only
        cases ho : ((s.mkdirAll cfg.flt (names dst).dropLast).2.openCreate cfg.flt cfg.umask (names dst) (fileMode e)).1 <;> exact ⟨rfl, rfl⟩

theorem closeAtH_erase (cfg : FCfg) (k : Nat) (s : FSink) : (s.closeAtH cfg k).1 = (s.closeAt cfg k).1 ∧ (s.closeAtH cfg k).2.1 = (s.closeAt cfg k).2 := by
  cases h : s.ws[k]? with
  | none => simp only [closeAtH, closeAt, h, and_self]
  | some w =>
    match w, h with
    | .nop, h => simp only [closeAtH, closeAt, h, and_self]
    | .real i o true, h => simp only [closeAtH, closeAt, h, and_self]
    | .real i o false, h => simp only [closeAtH, closeAt, h, and_self]

theorem closeH_erase (cfg : FCfg) (s : FSink) : (s.closeH cfg).1 = (s.close cfg).1 ∧ (s.closeH cfg).2.1 = (s.close cfg).2 := by
  cases h : s.reg with
  | none => simp only [closeH, close, h, and_self]
  | some k =>
    obtain ⟨a, b⟩ := closeAtH_erase cfg k s
    simp only [closeH, close, h, a, b, and_self]

theorem getWriterH_erase (cfg : FCfg) (e : Entry) (s : FSink) : (s.getWriterH cfg e).1 = (s.getWriter cfg e).1 ∧ (s.getWriterH cfg e).2.1 = (s.getWriter cfg e).2 := by
  by_cases hi : shouldIgnore e.path = true
  · simp only [getWriterH, getWriter, hi, if_true, and_self]
  · obtain ⟨a, b⟩ := createFileH_erase cfg e s.os
    simp only [getWriterH, getWriter, hi, a, b, if_false, Bool.false_eq_true]
    cases hc : (createFile cfg e s.os).1 with
    | error x => exact ⟨rfl, rfl⟩
    | ok i =>
      dsimp only
      cases ht : ((createFile cfg e s.os).2.truncate cfg.flt i e.woff).1 with
      | some x => exact ⟨rfl, rfl⟩
      | none =>
        dsimp only
        rw [(closeH_erase cfg _).2]
        exact ⟨rfl, rfl⟩

theorem preallocateH_erase (cfg : FCfg) (e : Entry) (s : FSink) : (s.preallocateH cfg e).1 = (s.preallocate cfg e).1 ∧ (s.preallocateH cfg e).2.1 = (s.preallocate cfg e).2 := by
  by_cases hi : shouldIgnore e.path = true
  · simp only [preallocateH, preallocate, hi, if_true, and_self]
  · obtain ⟨a, b⟩ := createFileH_erase cfg e s.os
    simp only [preallocateH, preallocate, hi, a, b, if_false, Bool.false_eq_true]
    cases hc : (createFile cfg e s.os).1 <;> exact ⟨rfl, rfl⟩

/-- Counting changes nothing else. -/
theorem FOp.counted_erase (cfg : FCfg) (op : FOp) (s : FSink) : (op.counted cfg s).1 = (op.run cfg s).1 ∧ (op.counted cfg s).2.1 = (op.run cfg s).2 := by
  cases op with
  | getWriter e => exact getWriterH_erase cfg e s
  | prealloc e => exact preallocateH_erase cfg e s
  | closeWriter k => exact closeAtH_erase cfg k s
  | close => exact closeH_erase cfg s
  | _ => exact ⟨rfl, rfl⟩

theorem closeAtH_count (cfg : FCfg) (k : Nat) (s : FSink) : (s.closeAtH cfg k).2.2 = (openWriters (s.closeAtH cfg k).2.1 : Int) - openWriters s := by
  unfold closeAtH
  split
  · rename_i i o h
    obtain ⟨hk, hv⟩ := List.getElem?_eq_some_iff.1 h
    have hpos : 0 < openWriters s := by
      unfold openWriters
      rw [List.countP_pos_iff]
      exact ⟨_, List.mem_of_getElem? h, rfl⟩
    have : openWriters { s with os := (s.os.quietCall cfg.flt).2, ws := s.ws.set k (.real i o false) } = openWriters s - 1 := by
      unfold openWriters
      rw [List.countP_set hk, hv]
      rfl
    dsimp only
    rw [this]
    omega
  · dsimp only; omega

theorem openWriters_reg (s : FSink) (r : Option Nat) : openWriters { s with reg := r } = openWriters s := rfl
theorem openWriters_os (s : FSink) (o : OS) : openWriters { s with os := o } = openWriters s := rfl

theorem closeH_count (cfg : FCfg) (s : FSink) : (s.closeH cfg).2.2 = (openWriters (s.closeH cfg).2.1 : Int) - openWriters s := by
  unfold closeH
  split
  · dsimp only; omega
  · exact closeAtH_count cfg _ s

theorem createFileH_ok (cfg : FCfg) (e : Entry) (s : OS) :
    ((createFileH cfg e s).2.2 = 0 ∨ (createFileH cfg e s).2.2 = 1) ∧ ∀ i, (createFileH cfg e s).1 = .ok i → (createFileH cfg e s).2.2 = 1 := by
  unfold createFileH
  split
  · exact ⟨.inl rfl, nofun⟩
  · dsimp only
    split
    · exact ⟨.inl rfl, nofun⟩
    · split
      · exact ⟨.inl rfl, nofun⟩
      · split
        · exact ⟨.inl rfl, nofun⟩
        · split
          · split
            · exact ⟨.inr rfl, nofun⟩
            · exact ⟨.inr rfl, fun _ _ => rfl⟩
          · exact ⟨.inr rfl, fun _ _ => rfl⟩

/-- One operation: the files it leaves open are those of its writers, and perhaps one more if it failed to open one. -/
theorem FOp.counted_spec (cfg : FCfg) (op : FOp) (s : FSink) : ∃ leak : Int, (leak = 0 ∨ leak = 1 ∧ op.opens = true ∧ (op.counted cfg s).1 ≠ none) ∧
    (op.counted cfg s).2.2 = (openWriters (op.counted cfg s).2.1 : Int) - openWriters s + leak := by
  cases op with
  | getWriter e =>
    simp only [FOp.counted, getWriterH]
    split
    · refine ⟨0, .inl rfl, ?_⟩
      unfold openWriters
      simp
    · obtain ⟨h1, h2⟩ := createFileH_ok cfg e s.os
      split
      · refine ⟨(createFileH cfg e s.os).2.2, ?_, ?_⟩
        · rcases h1 with h | h
          · exact .inl h
          · exact .inr ⟨h, rfl, nofun⟩
        · (try dsimp only); (try rw [openWriters_os]); omega
      · rename_i i hi
        rw [h2 i hi]
        split
        · refine ⟨1, .inr ⟨rfl, rfl, nofun⟩, ?_⟩
          (try dsimp only); (try rw [openWriters_os]); omega
        · refine ⟨0, .inl rfl, ?_⟩
          dsimp only
          rw [closeH_count]
          have : ∀ (q : FSink) (w : Wr) (r : Option Nat), w = .real i e.woff.toNat true → openWriters { q with ws := q.ws ++ [w], reg := r } = openWriters q + 1 := by
            intro q w r hw
            subst hw
            unfold openWriters
            rw [List.countP_append]
            rfl
          rw [this _ _ _ rfl, openWriters_os]
          have := openWriters_os s ((createFileH cfg e s.os).2.1.truncate cfg.flt i e.woff).2
          omega
  | prealloc e =>
    simp only [FOp.counted, preallocateH]
    split
    · exact ⟨0, .inl rfl, by dsimp only; omega⟩
    · obtain ⟨h1, h2⟩ := createFileH_ok cfg e s.os
      split
      · refine ⟨(createFileH cfg e s.os).2.2, ?_, ?_⟩
        · rcases h1 with h | h
          · exact .inl h
          · exact .inr ⟨h, rfl, nofun⟩
        · (try dsimp only); (try rw [openWriters_os]); omega
      · rename_i i hi
        dsimp only
        rw [h2 i hi]
        exact ⟨0, .inl rfl, by (try dsimp only); (try rw [openWriters_os]); omega⟩
  | closeWriter k => exact ⟨0, .inl rfl, by rw [show (FOp.closeWriter k).counted cfg s = s.closeAtH cfg k from rfl, closeAtH_count]; omega⟩
  | close => exact ⟨0, .inl rfl, by rw [show FOp.close.counted cfg s = s.closeH cfg from rfl, closeH_count]; omega⟩
  | nuke =>
    refine ⟨0, .inl rfl, ?_⟩
    have : openWriters (s.nuke cfg).2 = openWriters (s.close cfg).2 := by
      unfold FSink.nuke
      dsimp only
      split
      · rfl
      · split
        · rfl
        · split
          · rfl
          · split
            · rfl
            · split <;> rfl
    simp only [FOp.counted]
    rw [this, closeH_count, (closeH_erase cfg s).2]
    omega
  | mkdir e =>
    refine ⟨0, .inl rfl, ?_⟩
    have := (mkdir_ws cfg e s).1
    simp only [FOp.counted, FOp.run]
    unfold openWriters
    rw [this]
    omega
  | symlink e t =>
    refine ⟨0, .inl rfl, ?_⟩
    have : (s.symlink cfg e t).2.ws = s.ws := by
      unfold FSink.symlink
      repeat' (first | rfl | (dsimp only; split) | split)
    simp only [FOp.counted, FOp.run]
    unfold openWriters
    rw [this]
    omega
  | write k bs =>
    refine ⟨0, .inl rfl, ?_⟩
    simp only [FOp.counted, FOp.run, writeAt]
    split
    · rename_i i o h
      obtain ⟨hk, hv⟩ := List.getElem?_eq_some_iff.1 h
      have hpos : 0 < openWriters s := by
        unfold openWriters
        rw [List.countP_pos_iff]
        exact ⟨_, List.mem_of_getElem? h, rfl⟩
      dsimp only
      unfold openWriters at hpos ⊢
      dsimp only
      rw [List.countP_set hk, hv]
      simp only [if_true]
      omega
    · dsimp only; omega
    · dsimp only; omega
    · dsimp only; omega
  | sync k =>
    refine ⟨0, .inl rfl, ?_⟩
    simp only [FOp.counted, FOp.run, syncAt]
    split <;> (dsimp only; first | omega | ((try dsimp only); (try rw [openWriters_os]); omega))

/-- Files left open are those of open writers and at most one for every failed call of `GetWriter` or `Preallocate`. -/
theorem openFiles_bounds (cfg : FCfg) : ∀ (ops : List FOp) (s : FSink) (h : Int),
    h - openWriters s + openWriters (runOps cfg ops s) ≤ openFiles cfg ops s h ∧
    openFiles cfg ops s h ≤ h - openWriters s + openWriters (runOps cfg ops s) + failedOpens cfg ops s := by
  intro ops
  induction ops with
  | nil => intro s h; simp only [openFiles, runOps, failedOpens, List.foldl_nil]; omega
  | cons op ops ih =>
    intro s h
    obtain ⟨leak, hl, he⟩ := op.counted_spec cfg s
    obtain ⟨e1, e2⟩ := op.counted_erase cfg s
    have := ih (op.run cfg s).2 (h + (op.counted cfg s).2.2)
    have hr : runOps cfg (op :: ops) s = runOps cfg ops (op.run cfg s).2 := rfl
    simp only [openFiles, failedOpens]
    rw [hr, e2]
    rw [e2] at he
    rw [e1] at hl
    rcases hl with hl | ⟨hl, h1, h2⟩
    · subst hl
      split <;> omega
    · subst hl
      rw [if_pos ⟨h1, h2⟩]
      omega

theorem openWriters_none {s : FSink} (h : ∀ (k i o : Nat), s.ws[k]? ≠ some (Wr.real i o true)) : openWriters s = 0 := by
  unfold openWriters
  rw [List.countP_eq_zero]
  intro w hw hp
  obtain ⟨k, hk⟩ := List.getElem?_of_mem hw
  match w, hp with
  | .real i o true, _ => exact h k i o hk

theorem openWriters_one {s : FSink} (h : s.OneOpen) : openWriters s ≤ 1 := by
  cases hr : s.reg with
  | none =>
    rw [openWriters_none fun k i o hk => by have := h k i o hk; rw [hr] at this; cases this]
    omega
  | some r =>
    have hc := (close_allDead ⟨[], .error .eof, 0, fun _ => none, true, fun c _ => c⟩ s h).2
    have h0 := openWriters_none hc
    have h1 := closeH_count ⟨[], .error .eof, 0, fun _ => none, true, fun c _ => c⟩ s
    rw [(closeH_erase _ s).2, h0] at h1
    unfold closeH at h1
    rw [hr] at h1
    unfold closeAtH at h1
    dsimp only at h1
    split at h1 <;> (dsimp only at h1; omega)

theorem openFiles_append (cfg : FCfg) : ∀ (a b : List FOp) (s : FSink) (h : Int), openFiles cfg (a ++ b) s h = openFiles cfg b (runOps cfg a s) (openFiles cfg a s h) := by
  intro a
  induction a with
  | nil => intro b s h; rfl
  | cons op a ih =>
    intro b s h
    simp only [List.cons_append, openFiles]
    rw [ih, (op.counted_erase cfg s).2]
    rfl

/-- **C77** (any calls, any failures). A new sink and the writers it handed out hold at most one file open, and none after `Close` — not
counting at most one for every call of `GetWriter` or `Preallocate` that failed. -/
theorem C77_files (cfg : FCfg) (os : OS) (ops : List FOp) :
    0 ≤ openFiles cfg ops (.fresh os) 0 ∧ openFiles cfg ops (.fresh os) 0 ≤ 1 + failedOpens cfg ops (.fresh os) ∧
    0 ≤ openFiles cfg (ops ++ [.close]) (.fresh os) 0 ∧ openFiles cfg (ops ++ [.close]) (.fresh os) 0 ≤ failedOpens cfg ops (.fresh os) := by
  have hone := runOps_oneOpen cfg ops _ (fresh_oneOpen os)
  have h1 := openWriters_one hone
  have h2 := openFiles_bounds cfg ops (.fresh os) 0
  have h0 : openWriters (.fresh os) = 0 := rfl
  rw [h0] at h2
  have hd := openWriters_none (close_allDead cfg _ hone).2
  have h3 := closeH_count cfg (runOps cfg ops (.fresh os))
  rw [(closeH_erase cfg _).2, hd] at h3
  have h4 : openFiles cfg (ops ++ [.close]) (.fresh os) 0 = openFiles cfg ops (.fresh os) 0 + ((runOps cfg ops (.fresh os)).closeH cfg).2.2 := by
    rw [openFiles_append]
    rfl
  rw [h4]
  omega

/-- Every second system call fails. -/
def oddFaults : Faults := fun t => if t % 2 = 1 then some ⟨1, 0, fun _ => false⟩ else none

/-- **C77 is false when calls fail**: a file that is there and cannot be chmoded costs a descriptor at every attempt to write it, and
`Close` gives none of them back: any number can be lost. -/
theorem C77_false_leak (n : Nat) : ∃ (cfg : FCfg) (os : OS) (ops : List FOp), ops.length = n ∧ (∀ op ∈ ops, ∃ e, op = .getWriter e ∧ e.woff = 0) ∧
    openFiles cfg (ops ++ [.close]) (.fresh os) 0 = n := by
  have step : ∀ t, t % 2 = 0 → (createFileH { exCfg with flt := oddFaults } { exFile with woff := 0 } ⟨exFS (cs ['f']) (.file 0) [], t⟩).2.1 = ⟨exFS (cs ['f']) (.file 0) [], t + 1 + 1⟩ ∧
      (createFileH { exCfg with flt := oddFaults } { exFile with woff := 0 } ⟨exFS (cs ['f']) (.file 0) [], t⟩).2.2 = 1 ∧
      ∃ x, (createFileH { exCfg with flt := oddFaults } { exFile with woff := 0 } ⟨exFS (cs ['f']) (.file 0) [], t⟩).1 = .error x := by
    intro t ht
    have h1 : oddFaults t = none := if_neg (by omega)
    have h2 : oddFaults (t + 1) = some ⟨1, 0, fun _ => false⟩ := if_pos (by omega)
    have a1 : ({ exCfg with flt := oddFaults } : FCfg).destPath exFile.path = .ok (pathText [[100], cs ['f']]) := by rfl
    have a2 : OS.mkdirAll oddFaults (names (pathText [[100], cs ['f']])).dropLast ⟨exFS (cs ['f']) (.file 0) [], t⟩ = (none, ⟨exFS (cs ['f']) (.file 0) [], t⟩) := by rfl
    have a3 : (exFS (cs ['f']) (.file 0) []).lstat (names (pathText [[100], cs ['f']])) = .found [[100], cs ['f']] (.file 0) := by rfl
    have a4 : (exFS (cs ['f']) (.file 0) []).stat (names (pathText [[100], cs ['f']])) = .found [[100], cs ['f']] (.file 0) := by rfl
    simp only [createFileH, a1, a2, a3, OS.openCreate, h1, a4, OS.chmod, h2]
    exact ⟨trivial, trivial, _, rfl⟩
  refine ⟨{ exCfg with flt := oddFaults }, ⟨exFS (cs ['f']) (.file 0) [], 0⟩, List.replicate n (.getWriter { exFile with woff := 0 }), List.length_replicate, ?_, ?_⟩
  · intro op hop
    exact ⟨_, (List.mem_replicate.1 hop).2, rfl⟩
  · have loop : ∀ n t, t % 2 = 0 → ∀ h, openFiles { exCfg with flt := oddFaults } (List.replicate n (.getWriter { exFile with woff := 0 }) ++ [.close])
        ⟨⟨exFS (cs ['f']) (.file 0) [], t⟩, [], none⟩ h = h + n := by
      intro n
      induction n with
      | zero => intro t ht h; simp only [List.replicate_zero, List.nil_append, openFiles, FOp.counted, closeH]; rfl
      | succ n ih =>
        intro t ht h
        obtain ⟨s1, s2, x, s3⟩ := step t ht
        have hs : (FOp.getWriter { exFile with woff := 0 }).counted { exCfg with flt := oddFaults } ⟨⟨exFS (cs ['f']) (.file 0) [], t⟩, [], none⟩ =
            (some (.wrapped x), ⟨⟨exFS (cs ['f']) (.file 0) [], t + 1 + 1⟩, [], none⟩, 1) := by
          have hi : shouldIgnore exFile.path = false := by rfl
          simp only [FOp.counted, getWriterH, hi, s1, s2, s3, Bool.false_eq_true, if_false]
        rw [List.replicate_succ, List.cons_append]
        simp only [openFiles, hs]
        rw [ih (t + 1 + 1) (by omega)]
        omega
    have := loop n 0 rfl 0
    rw [show (FSink.fresh ⟨exFS (cs ['f']) (.file 0) [], 0⟩) = ⟨⟨exFS (cs ['f']) (.file 0) [], 0⟩, [], none⟩ from rfl, this]
    omega

/-- Without failed calls: at most one, and none after `Close`. -/
theorem C77_no_leak (cfg : FCfg) (os : OS) (ops : List FOp) (h : failedOpens cfg ops (.fresh os) = 0) :
    openFiles cfg ops (.fresh os) 0 ≤ 1 ∧ openFiles cfg (ops ++ [.close]) (.fresh os) 0 = 0 := by
  have := C77_files cfg os ops
  omega

/-- Two files written one after the other, the first writer never closed: one file is open, none after `Close`. -/
def exHandleOps : List FOp := [.prealloc exFile, .getWriter exFile, .write 0 [1, 2], .getWriter { exFile with path := cs ['g'] }, .sync 1]

example : failedOpens exCfg exHandleOps (.fresh ⟨exFS (cs ['f']) (.file 0) [1, 2, 3, 4], 0⟩) = 0 ∧ openFiles exCfg exHandleOps (.fresh ⟨exFS (cs ['f']) (.file 0) [1, 2, 3, 4], 0⟩) 0 = 1 ∧
    openFiles exCfg (exHandleOps ++ [.close]) (.fresh ⟨exFS (cs ['f']) (.file 0) [1, 2, 3, 4], 0⟩) 0 = 0 :=
  ⟨by rfl, by rfl, (C77_no_leak exCfg _ exHandleOps (by rfl)).2⟩

/-- A negative `WriteOffset` is enough to lose a descriptor; no system call needs to misbehave. -/
example : openFiles exCfg [.getWriter { exFile with woff := -1 }, .close] (.fresh ⟨exFS (cs ['f']) (.file 0) [], 0⟩) 0 = 1 := by rfl

end Savior
