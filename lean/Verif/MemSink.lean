import Verif.Spec.PathSink
/-!
# An in-memory sink, used as an example of both sink contracts

Not part of /repo. It may fail any call, at the choice of `faults` (a failing write first stores some bytes).
-/

namespace Savior

/-- Nodes by path, the current writer's path and position, and the number of calls so far. -/
structure MemSt where
  nodes : Str → Option PNode
  cur : Option (Str × Nat)
  tick : Nat

/-- `c` cut or zero-padded to length `n`. -/
def resize (c : List Byte) (n : Nat) : List Byte := c.take n ++ List.replicate (n - c.length) 0

/-- `bs` written at position `o` of `c`. -/
def overwrite (c : List Byte) (o : Nat) (bs : List Byte) : List Byte := c.take o ++ bs ++ c.drop (o + bs.length)

theorem overwrite_append (c : List Byte) (o : Nat) (xs ys : List Byte) :
    overwrite (overwrite c o xs) (o + xs.length) ys = overwrite c o (xs ++ ys) := by
  unfold overwrite
  by_cases h : o ≤ c.length
  · have e : (c.take o ++ xs).length = o + xs.length := by simp [Nat.min_eq_left h]
    have e2 : o + xs.length + ys.length - (o + xs.length) = ys.length := by omega
    have a : (c.take o ++ xs ++ c.drop (o + xs.length)).take (o + xs.length) = c.take o ++ xs := by
      rw [← e, List.take_left]
    have b : (c.take o ++ xs ++ c.drop (o + xs.length)).drop (o + xs.length + ys.length) = c.drop (o + (xs ++ ys).length) := by
      rw [← List.drop_drop, ← e, List.drop_left, List.drop_drop, e]
      congr 1
      simp; omega
    rw [a, b]
    simp
  · have h1 : c.take o = c := List.take_of_length_le (by omega)
    have h2 : ∀ k, c.drop (o + k) = [] := fun k => List.drop_eq_nil_of_le (by omega)
    have h3 : (c ++ xs).drop (o + xs.length + ys.length) = [] := List.drop_eq_nil_of_le (by simp; omega)
    have h4 : (c ++ xs).take (o + xs.length) = c ++ xs := List.take_of_length_le (by simp; omega)
    rw [h1, h2, h2, List.append_nil, List.append_nil, h3, h4]
    simp

/-- One node set. -/
def setNode (f : Str → Option PNode) (p : Str) (n : PNode) : Str → Option PNode := fun q => if q = p then some n else f q

/-- The content of the file at `p`; empty if there is none. (Not code of /repo, like the rest of this file.) -/
def fileAt (f : Str → Option PNode) (p : Str) : List Byte :=
  match f p with
  | some (.file c) => c
  | _ => []

namespace MemSt

/-- A node set. -/
def put (s : MemSt) (p : Str) (n : PNode) : MemSt := { s with nodes := setNode s.nodes p n }

/-- `GetWriter`, as the Sink interface (sink.go) asks for it: the file is cut or extended to `WriteOffset`, writing goes on there. -/
def open_ (e : Entry) (s : MemSt) : MemSt :=
  { s with nodes := setNode s.nodes e.path (.file (resize (fileAt s.nodes e.path) e.woff.toNat)), cur := some (e.path, e.woff.toNat) }

/-- `Write` by the current writer. -/
def write (bs : List Byte) (s : MemSt) : MemSt :=
  match s.cur with
  | none => s
  | some (p, o) =>
    if bs = [] then s
    else { s with nodes := setNode s.nodes p (.file (overwrite (fileAt s.nodes p) o bs)), cur := some (p, o + bs.length) }

end MemSt

/-- The in-memory sink. -/
def memSink (faults : Nat → Option Nat) : SinkM where
  St := MemSt
  mkdir e s := match faults s.tick with
    | some n => (some (.os n), { s with tick := s.tick + 1 })
    | none => (none, { s.put e.path .dir with tick := s.tick + 1 })
  symlink e t s := match faults s.tick with
    | some n => (some (.os n), { s with tick := s.tick + 1 })
    | none => (none, { s.put e.path (.link t) with tick := s.tick + 1 })
  preallocate e s := match faults s.tick with
    | some n => (some (.os n), { s with tick := s.tick + 1 })
    | none => (none, { s.put e.path (.file (resize (fileAt s.nodes e.path) (max e.usize.toNat (fileAt s.nodes e.path).length))) with tick := s.tick + 1 })
  getWriter e s :=
    if e.woff < 0 then (some (.os 22), { s with tick := s.tick + 1 })
    else match faults s.tick with
    | some n => (some (.os n), { s with tick := s.tick + 1 })
    | none => (none, { s.open_ e with tick := s.tick + 1 })
  write bs s :=
    if s.cur = none then ((0, 0, some .closed), s)
    else match faults s.tick with
    | some n => ((min n bs.length, min n bs.length, some (.os n)), { s.write (bs.take n) with tick := s.tick + 1 })
    | none => ((bs.length, bs.length, none), { s.write bs with tick := s.tick + 1 })
  sync s := match faults s.tick with
    | some n => (some (.os n), { s with tick := s.tick + 1 })
    | none => (none, { s with tick := s.tick + 1 })
  closeWriter s := s
  reborn s := { s with cur := none }

/-- The view: everything but the call counter. -/
def memLaw (faults : Nat → Option Nat) : SinkLaw (memSink faults) where
  W := (Str → Option PNode) × Option (Str × Nat)
  view s := (s.nodes, s.cur)
  mkdir e v := (setNode v.1 e.path .dir, v.2)
  symlink e t v := (setNode v.1 e.path (.link t), v.2)
  prealloc e v := (setNode v.1 e.path (.file (resize (fileAt v.1 e.path) (max e.usize.toNat (fileAt v.1 e.path).length))), v.2)
  openOK e _ := 0 ≤ e.woff
  open_ e v := (setNode v.1 e.path (.file (resize (fileAt v.1 e.path) e.woff.toNat)), some (e.path, e.woff.toNat))
  write bs v := match v.2 with
    | none => v
    | some (p, o) => if bs = [] then v else (setNode v.1 p (.file (overwrite (fileAt v.1 p) o bs)), some (p, o + bs.length))
  counts _ := true
  counting v := true
  mkdir_ok e s h := by simp only [memSink] at h ⊢; split at h <;> simp_all [MemSt.put]
  symlink_ok e t s h := by simp only [memSink] at h ⊢; split at h <;> simp_all [MemSt.put]
  prealloc_ok e s h := by simp only [memSink] at h ⊢; split at h <;> simp_all [MemSt.put]
  getWriter_ok e s h := by
    simp only [memSink] at h ⊢
    split at h
    · simp at h
    · rename_i hw
      split at h
      · simp at h
      · rename_i hf
        simp only [hw, if_false]
        exact ⟨by omega, rfl⟩
  write_ok bs s h := by
    simp only [memSink] at h ⊢
    split at h
    · simp at h
    · rename_i hw
      split at h
      · simp at h
      · rename_i hf
        simp only [hw, if_false, MemSt.write]
        refine ⟨trivial, by simp, ?_⟩
        cases hc : s.cur with
        | none => exact absurd hc hw
        | some q => by_cases hb : bs = [] <;> simp [hb, hc]
  sync_view s := by simp only [memSink]; split <;> rfl
  close_view s := rfl
  detach v := (v.1, none)
  open_detach _ _ := rfl
  reborn_view _ := rfl
  open_counting _ _ := rfl
  write_counting _ _ := rfl
  counts_woff _ _ := rfl
  write_nil w := by cases h : w.2 <;> simp
  write_append xs ys w := by
    obtain ⟨f, c⟩ := w
    cases c with
    | none => simp
    | some q =>
      obtain ⟨p, o⟩ := q
      by_cases hx : xs = []
      · simp [hx]
      · by_cases hy : ys = []
        · simp [hx, hy]
        · simp only [List.append_eq_nil_iff, hx, hy, if_false, and_self]
          refine Prod.ext ?_ (by simp [Nat.add_assoc])
          funext q
          by_cases hq : q = p
          · simp [setNode, fileAt, hq, overwrite_append]
          · simp [setNode, hq]
  reopen e w xs ys _ h0 _ := by
    have hr : ∀ c : List Byte, resize c 0 = [] := by intro c; simp [resize]
    have ho : ∀ b : List Byte, overwrite [] 0 b = b := by intro b; simp [overwrite]
    have hf : ∀ (f : Str → Option PNode) p c, fileAt (setNode f p (.file c)) p = c := by intros; simp [fileAt, setNode]
    have hs : ∀ (f : Str → Option PNode) p a b, setNode (setNode f p a) p b = setNode f p b := by
      intros; funext q; simp only [setNode]; split <;> rfl
    have hz : ∀ xs ys : List Byte, resize (xs ++ ys) xs.length = xs := by intro xs ys; simp [resize]
    by_cases hx : xs = []
    · by_cases hy : ys = [] <;> simp [hx, hy, h0, hr, hs, hf, ho]
    · simp [hx, h0, hr, hs, hf, ho, hz]
  ignored _ _ _ h := by simp at h

theorem memWrite_end (bs : List Byte) (s : MemSt) (p : Str) (c : List Byte) (hn : s.nodes p = some (.file c))
    (hc : s.cur = some (p, c.length)) : (s.write bs).nodes p = some (.file (c ++ bs)) ∧ (s.write bs).cur = some (p, c.length + bs.length) ∧
      ∀ q, q ≠ p → (s.write bs).nodes q = s.nodes q := by
  unfold MemSt.write
  rw [hc]
  by_cases hb : bs = []
  · simp [hb, hn, hc]
  · simp [hb, setNode, fileAt, hn, overwrite]
    intro q hq; simp [hq]

/-- The in-memory sink keeps one node per path, whatever fails. -/
def memPath (faults : Nat → Option Nat) : PathLaw (memSink faults) where
  Inv _ := True
  Fits _ _ := True
  shown _ := true
  node s := s.nodes
  At s p o := s.cur = some (p, o)
  Deaf _ := False
  mkdir_inv _ _ _ _ := trivial
  symlink_inv _ _ _ _ _ := trivial
  prealloc_inv _ _ _ _ := trivial
  open_inv _ _ _ _ := trivial
  open_deaf e s _ _ h := by simp at h
  write_deaf bs s _ h := h.elim
  mkdir_frame e s p k n _ _ _ h hn := by simp only [memSink]; split <;> simp [MemSt.put, setNode, h, hn]
  mkdir_ok e s _ _ _ h := by simp only [memSink] at h ⊢; split at h <;> simp_all [MemSt.put, setNode]
  symlink_frame e t s p k n _ _ _ h hn := by simp only [memSink]; split <;> simp [MemSt.put, setNode, h, hn]
  symlink_ok e t s _ _ _ _ h := by simp only [memSink] at h ⊢; split at h <;> simp_all [MemSt.put, setNode]
  open_frame e s p k n _ _ _ h hn := by
    simp only [memSink]
    split
    · exact hn
    · split <;> simp [MemSt.open_, setNode, h, hn]
  open_ok e s o _ _ _ ho h := by
    simp only [memSink] at h ⊢
    have hw : ¬ e.woff < 0 := by omega
    simp only [hw, if_false] at h ⊢
    split at h
    · simp at h
    · refine ⟨resize (fileAt s.nodes e.path) o, by simp [MemSt.open_, setNode, ho], ?_, by simp [MemSt.open_, ho], ?_⟩
      · simp [resize]; omega
      · intro c0 h1 h2
        simp [resize, fileAt, h1, Nat.sub_eq_zero_of_le h2]
  open_fail e s o _ _ _ ho h c0 h1 h2 := by
    simp only [memSink] at h ⊢
    have hw : ¬ e.woff < 0 := by omega
    simp only [hw, if_false] at h ⊢
    split at h
    · exact ⟨c0, h1, h2, rfl⟩
    · simp at h
  write_spec bs s p c _ _ hn hc := by
    simp only [memSink]
    have h0 : s.cur ≠ none := by simp [hc]
    simp only [h0, if_false]
    split
    · rename_i n hf
      obtain ⟨a, b, d⟩ := memWrite_end (bs.take n) s p c hn hc
      refine ⟨min n bs.length, by omega, ?_, ?_, by simp only; omega, by simp, trivial, fun q _ m _ hq hm => by rw [← hm]; exact d q hq⟩
      · simp only [a]
        congr 3
        rw [List.take_eq_take_iff]; omega
      · simpa using b
    · obtain ⟨a, b, d⟩ := memWrite_end bs s p c hn hc
      exact ⟨bs.length, by omega, by simpa using a, b, by simp, by simp, trivial, fun q _ m _ hq hm => by rw [← hm]; exact d q hq⟩
  sync_spec s _ := by simp only [memSink]; split <;> exact ⟨trivial, rfl, fun _ _ h => h, fun h => h⟩
  close_spec _ _ := ⟨trivial, rfl⟩
  reborn_spec _ _ := ⟨trivial, rfl⟩

theorem memPath_fits (faults : Nat → Option Nat) (A : Archive) : (memPath faults).FitsAll A := fun _ _ => trivial

end Savior
