import Verif.CheckerLemmas
import Verif.Spec.PathSink
/-!
# The checking sink keeps one node per path
-/

namespace Savior

/-- The writer handed out last for this path. -/
def CSt.lastW (s : CSt) (p : Str) : Option CWriter := (s.wr.filter (·.item.path = p)).getLast?

/-- What a checking sink has accepted for a path: a directory made, a symlink made with the right target, or a file of which the writer handed out
last for it is at some offset (all before it being as in the reference). -/
def checkNode (s : CSt) (p : Str) : Option PNode :=
  match s.item p with
  | none => none
  | some it =>
    match it.kind with
    | .dir => (s.done p).map fun _ => .dir
    | .symlink => (s.done p).bind fun d => if d.link = it.link then some (.link d.link) else none
    | .file => (s.lastW p).map fun w => .file (it.data.take w.off)

/-- Every writer is for an item of the sink, a file, and within it. -/
def checkInv (s : CSt) : Prop := ∀ w ∈ s.wr, s.item w.item.path = some w.item ∧ w.item.kind = .file ∧ w.off ≤ w.item.data.length

theorem checkNode_setDone (s : CSt) (p q : Str) (d : CDone) (h : q ≠ p) : checkNode (s.setDone p d) q = checkNode s q := by
  unfold checkNode CSt.setDone CSt.item CSt.lastW
  simp [h]

theorem item_path {s : CSt} {p : Str} {it : CItem} (h : s.item p = some it) : it.path = p := by
  have := List.find?_some h
  simpa using this

/-- What `withItem` leaves when the call does nothing more. -/
theorem cWith_frame (e : Entry) (kind : Kind) (s : CSt) (f : CItem → CDone → CSt → Option Err × CSt)
    (hf : ∀ it d, s.item e.path = some it → it.kind = kind → (f it d (s.setDone e.path d)).2.items = s.items ∧
      (f it d (s.setDone e.path d)).2.wr = s.wr ∧ ∀ q, q ≠ e.path → (f it d (s.setDone e.path d)).2.done q = s.done q) :
    (cWith e kind s f).2.items = s.items ∧ (cWith e kind s f).2.wr = s.wr ∧ ∀ q, q ≠ e.path → (cWith e kind s f).2.done q = s.done q := by
  unfold cWith
  split
  · exact ⟨rfl, rfl, fun _ _ => rfl⟩
  · rename_i it hit
    split
    · exact ⟨rfl, rfl, fun _ _ => rfl⟩
    · rename_i hk
      exact hf it _ hit (by simpa using hk)

theorem inv_congr {s s' : CSt} (h1 : s'.items = s.items) (h2 : s'.wr = s.wr) (h : checkInv s) : checkInv s' := by
  unfold checkInv CSt.item at *
  rw [h1, h2]; exact h

theorem node_congr {s s' : CSt} (h1 : s'.items = s.items) (h2 : s'.wr = s.wr) {p : Str} (h3 : s'.done p = s.done p) : checkNode s' p = checkNode s p := by
  unfold checkNode CSt.item CSt.lastW
  rw [h1, h2, h3]

theorem cMkdir_frame (e : Entry) (s : CSt) : (cMkdir e s).2.items = s.items ∧ (cMkdir e s).2.wr = s.wr ∧ ∀ q, q ≠ e.path → (cMkdir e s).2.done q = s.done q :=
  cWith_frame e .dir s _ fun it d _ _ => ⟨rfl, rfl, fun q hq => by simp [CSt.setDone, hq]⟩

theorem cPrealloc_frame (e : Entry) (s : CSt) : (cPrealloc e s).2.items = s.items ∧ (cPrealloc e s).2.wr = s.wr ∧ ∀ q, q ≠ e.path → (cPrealloc e s).2.done q = s.done q :=
  cWith_frame e .file s _ fun it d _ _ => ⟨rfl, rfl, fun q hq => by simp [CSt.setDone, hq]⟩

theorem cSymlink_frame (e : Entry) (t : Str) (s : CSt) :
    (cSymlink e t s).2.items = s.items ∧ (cSymlink e t s).2.wr = s.wr ∧ ∀ q, q ≠ e.path → (cSymlink e t s).2.done q = s.done q :=
  cWith_frame e .symlink s _ fun it d _ _ => by
    split <;> exact ⟨rfl, rfl, fun q hq => by simp [CSt.setDone, hq]⟩

/-- What `GetWriter` leaves. -/
theorem cOpen_cases (e : Entry) (s : CSt) :
    (cOpen e s).2.items = s.items ∧ (∀ q, q ≠ e.path → (cOpen e s).2.done q = s.done q) ∧
    (((cOpen e s).1 ≠ none ∧ (cOpen e s).2.wr = s.wr) ∨
     ((cOpen e s).1 = none ∧ ∃ it, s.item e.path = some it ∧ it.kind = .file ∧ 0 ≤ e.woff ∧ e.woff ≤ it.data.length ∧
        (cOpen e s).2.wr = s.wr ++ [⟨it, e.woff.toNat⟩])) := by
  unfold cOpen cWith
  cases hit : s.item e.path with
  | none => simp
  | some it =>
    simp only
    by_cases hk : it.kind = .file
    · rw [if_neg (by simpa using hk)]
      by_cases hz : e.woff = 0
      · rw [if_neg (by simpa using hz)]
        exact ⟨rfl, fun q hq => by simp [CSt.setDone, hq], .inr ⟨rfl, it, rfl, hk, by omega, by omega, by simp [CSt.setDone, hz]⟩⟩
      · rw [if_pos hz]
        unfold cSeek
        by_cases h1 : e.woff > it.data.length
        · simp only [if_pos h1]
          exact ⟨rfl, fun q hq => by simp [CSt.setDone, hq], .inl ⟨by simp, rfl⟩⟩
        · rw [if_neg h1]
          by_cases h2 : e.woff < 0
          · simp only [if_pos h2]
            exact ⟨rfl, fun q hq => by simp [CSt.setDone, hq], .inl ⟨by simp, rfl⟩⟩
          · simp only [if_neg h2]
            exact ⟨rfl, fun q hq => by simp [CSt.setDone, hq], .inr ⟨trivial, it, rfl, hk, by omega, by omega, rfl⟩⟩
    · rw [if_pos hk]
      simp

theorem lastW_snoc (s : CSt) (ws : List CWriter) (w : CWriter) (h : s.wr = ws ++ [w]) (p : Str) :
    s.lastW p = if w.item.path = p then some w else (ws.filter (·.item.path = p)).getLast? := by
  unfold CSt.lastW
  rw [h, List.filter_append]
  by_cases hp : w.item.path = p <;> simp [hp]

theorem list_snoc_of_getLast? {α : Type} {l : List α} {a : α} (h : l.getLast? = some a) : ∃ ws, l = ws ++ [a] := by
  rcases List.eq_nil_or_concat l with rfl | ⟨ws, b, rfl⟩
  · cases h
  · simp at h; subst h; exact ⟨ws, by simp⟩

/-- What a write on the current writer does. -/
theorem cWrite_last (bs : List Byte) (s : CSt) (ws : List CWriter) (w : CWriter) (h : s.wr = ws ++ [w]) :
    (cWrite (s.wr.length - 1) bs s).1 = cCheck w.item.data w.off bs ∧
    (cWrite (s.wr.length - 1) bs s).2.items = s.items ∧
    (∀ q, q ≠ w.item.path → (cWrite (s.wr.length - 1) bs s).2.done q = s.done q) ∧
    (cWrite (s.wr.length - 1) bs s).2.wr = ws ++ [{ w with off := w.off + (cCheck w.item.data w.off bs).1 }] := by
  have hk : s.wr[s.wr.length - 1]? = some w := by rw [h]; simp
  unfold cWrite
  rw [hk]
  refine ⟨rfl, rfl, fun q hq => by simp [CSt.setDone, hq], ?_⟩
  simp [CSt.setDone, h]

/-- The checking sink keeps one node per path, whatever is asked of it. -/
def checkPath (items : List CItem) : PathLaw checkSink where
  Inv s := s.items = items ∧ checkInv s
  Fits _ _ := True
  shown _ := true
  node := checkNode
  At s p o := ∃ w, s.wr.getLast? = some w ∧ w.item.path = p ∧ w.off = o
  Deaf _ := False
  mkdir_inv := fun e s h _ => ⟨(cMkdir_frame e s).1.trans h.1, inv_congr (cMkdir_frame e s).1 (cMkdir_frame e s).2.1 h.2⟩
  mkdir_frame := by
    intro e s p k n _ _ _ hp hn
    obtain ⟨a, b, c⟩ := cMkdir_frame e s
    rw [← hn]
    exact node_congr a b (c p hp)
  mkdir_ok := by
    intro e s _ _ _ h
    show checkNode (cMkdir e s).2 e.path = some .dir
    have h' : (cMkdir e s).1 = none := h
    unfold cMkdir cWith at h' ⊢
    cases hit : s.item e.path with
    | none => rw [hit] at h'; simp at h'
    | some it =>
      rw [hit] at h'
      simp only at h' ⊢
      by_cases hk : it.kind = .dir
      · rw [if_neg (by simpa using hk)]
        unfold checkNode
        have : CSt.item (CSt.setDone e.path ((s.done e.path).getD .fresh) s) e.path = some it := hit
        rw [this]
        simp [hk, CSt.setDone]
      · rw [if_pos hk] at h'; simp at h'
  symlink_inv := fun e t s h _ => ⟨(cSymlink_frame e t s).1.trans h.1, inv_congr (cSymlink_frame e t s).1 (cSymlink_frame e t s).2.1 h.2⟩
  symlink_frame := by
    intro e t s p k n _ _ _ hp hn
    obtain ⟨a, b, c⟩ := cSymlink_frame e t s
    rw [← hn]
    exact node_congr a b (c p hp)
  symlink_ok := by
    intro e t s _ _ _ _ h
    show checkNode (cSymlink e t s).2 e.path = some (.link t)
    have h' : (cSymlink e t s).1 = none := h
    unfold cSymlink cWith at h' ⊢
    cases hit : s.item e.path with
    | none => rw [hit] at h'; simp at h'
    | some it =>
      rw [hit] at h'
      simp only at h' ⊢
      by_cases hk : it.kind = .symlink
      · rw [if_neg (by simpa using hk)] at h' ⊢
        by_cases hl : it.link = t
        · rw [if_neg (by simpa using hl)]
          unfold checkNode
          have : ∀ d d', CSt.item (CSt.setDone e.path d (CSt.setDone e.path d' s)) e.path = some it := fun _ _ => hit
          rw [this]
          simp [hk, CSt.setDone, hl]
        · rw [if_pos hl] at h'; simp at h'
      · rw [if_pos hk] at h'; simp at h'
  prealloc_inv := fun e s h _ => ⟨(cPrealloc_frame e s).1.trans h.1, inv_congr (cPrealloc_frame e s).1 (cPrealloc_frame e s).2.1 h.2⟩
  open_inv := by
    intro e s ⟨h0, h⟩ _
    obtain ⟨a, _, c⟩ := cOpen_cases e s
    refine ⟨a.trans h0, ?_⟩
    show checkInv (cOpen e s).2
    rcases c with ⟨_, c⟩ | ⟨_, it, h1, h2, h3, h4, h5⟩
    · exact inv_congr a c h
    · intro w hw
      rw [h5] at hw
      unfold CSt.item
      rw [a]
      rcases List.mem_append.1 hw with hw | hw
      · exact h w hw
      · rw [List.mem_singleton.1 hw]
        refine ⟨?_, h2, ?_⟩
        · show s.items.find? (·.path = it.path) = _
          rw [item_path h1]; exact h1
        · show e.woff.toNat ≤ it.data.length
          omega
  open_frame := by
    intro e s p k n _ _ _ hp hn
    show checkNode (cOpen e s).2 p = some n
    obtain ⟨a, b, c⟩ := cOpen_cases e s
    rw [← hn]
    rcases c with ⟨_, c⟩ | ⟨_, it, h1, h2, h3, h4, h5⟩
    · exact node_congr a c (b p hp)
    · unfold checkNode CSt.item
      rw [a, b p hp, lastW_snoc _ _ _ h5]
      have : ¬ it.path = p := by rw [item_path h1]; exact fun h => hp h.symm
      rw [if_neg this]
      rfl
  open_ok := by
    intro e s o hinv _ _ hw hok
    have hok' : (cOpen e s).1 = none := hok
    show ∃ c, checkNode (cOpen e s).2 e.path = some (.file c) ∧ c.length = o ∧
      (∃ w, (cOpen e s).2.wr.getLast? = some w ∧ w.item.path = e.path ∧ w.off = o) ∧
      ∀ c0, checkNode s e.path = some (.file c0) → o ≤ c0.length → c = c0.take o
    obtain ⟨a, b, c⟩ := cOpen_cases e s
    rcases c with ⟨h, _⟩ | ⟨_, it, h1, h2, h3, h4, h5⟩
    · exact absurd hok' h
    · have ho : e.woff.toNat = o := by omega
      have hlen : o ≤ it.data.length := by omega
      refine ⟨it.data.take o, ?_, by simp [hlen], ⟨⟨it, e.woff.toNat⟩, by rw [h5]; simp, item_path h1, ho⟩, ?_⟩
      · unfold checkNode
        have : (cOpen e s).2.item e.path = some it := by unfold CSt.item; rw [a]; exact h1
        rw [this, lastW_snoc _ _ _ h5]
        simp [h2, item_path h1, ho]
      · intro c0 hc0 hle
        unfold checkNode at hc0
        rw [h1] at hc0
        simp only [h2] at hc0
        cases hl : s.lastW e.path with
        | none => rw [hl] at hc0; cases hc0
        | some w =>
          rw [hl] at hc0
          simp at hc0
          rw [← hc0] at hle ⊢
          rw [List.take_take, Nat.min_eq_left]
          simp at hle
          omega
  open_fail := by
    intro e s o hinv _ _ hw hok c0 hc0 hle
    show ∃ c, checkNode (cOpen e s).2 e.path = some (.file c) ∧ o ≤ c.length ∧ c.take o = c0.take o
    have hok' : (cOpen e s).1 ≠ none := hok
    obtain ⟨a, b, c⟩ := cOpen_cases e s
    rcases c with ⟨_, h⟩ | ⟨h, _⟩
    · refine ⟨c0, ?_, hle, rfl⟩
      rw [← hc0]
      unfold checkNode
      have : (cOpen e s).2.item e.path = s.item e.path := by unfold CSt.item; rw [a]
      have h0 : checkNode s e.path = some (.file c0) := hc0
      unfold checkNode at h0
      rw [this]
      cases hit : s.item e.path with
      | none => rfl
      | some it =>
        rw [hit] at h0
        simp only at h0 ⊢
        cases hk : it.kind with
        | dir => simp only [hk] at h0; cases hd : s.done e.path <;> rw [hd] at h0 <;> simp at h0
        | symlink => simp only [hk] at h0; cases hd : s.done e.path <;> rw [hd] at h0 <;> simp at h0
        | file =>
          simp only
          unfold CSt.lastW
          rw [h]
    · exact absurd h hok'
  open_deaf := fun _ _ _ _ h _ => by cases h
  write_spec := by
    intro bs s p c ⟨hitems, hinv⟩ _ hnode hat
    obtain ⟨w, hl, hp, ho⟩ := hat
    obtain ⟨ws, hws⟩ := list_snoc_of_getLast? hl
    obtain ⟨r1, r2, r3, r4⟩ := cWrite_last bs s ws w hws
    obtain ⟨c1, c2, c3, c4⟩ := cCheck_spec w.item.data w.off bs
    have hw := hinv w (by rw [hws]; simp)
    rw [hp] at hw
    have hc : c = w.item.data.take w.off := by
      have h0 : checkNode s p = some (.file c) := hnode
      unfold checkNode at h0
      rw [hw.1] at h0
      simp only [hw.2.1] at h0
      rw [lastW_snoc _ _ _ hws] at h0
      simp [hp] at h0
      exact h0.symm
    have happ : c ++ bs.take (cCheck w.item.data w.off bs).1 = w.item.data.take (w.off + (cCheck w.item.data w.off bs).1) := by
      rw [hc, List.take_add]
      congr 1
      apply List.ext_getElem?
      intro j
      by_cases hj : j < (cCheck w.item.data w.off bs).1
      · obtain ⟨b, b1, b2⟩ := c2 j hj
        rw [List.getElem?_take_of_lt hj, List.getElem?_take_of_lt hj, List.getElem?_drop, b1, b2]
      · rw [List.getElem?_eq_none (by simp; omega), List.getElem?_eq_none (by simp; omega)]
    have hle : w.off + (cCheck w.item.data w.off bs).1 ≤ w.item.data.length := by
      rcases Nat.eq_zero_or_pos (cCheck w.item.data w.off bs).1 with hz | hz
      · rw [hz]; exact hw.2.2
      · obtain ⟨b, _, b2⟩ := c2 ((cCheck w.item.data w.off bs).1 - 1) (by omega)
        have := (List.getElem?_eq_some_iff.1 b2).1
        omega
    refine ⟨(cCheck w.item.data w.off bs).1, c1, ?_, ?_, ?_, ?_, ?_, ?_⟩
    · show checkNode (cWrite (s.wr.length - 1) bs s).2 p = _
      unfold checkNode
      have : (cWrite (s.wr.length - 1) bs s).2.item p = some w.item := by unfold CSt.item; rw [r2]; exact hw.1
      rw [this, lastW_snoc _ _ _ r4]
      simp only [hw.2.1, hp, if_true, Option.map_some]
      rw [happ]
    · refine ⟨{ w with off := w.off + (cCheck w.item.data w.off bs).1 }, ?_, hp, ?_⟩
      · show (cWrite (s.wr.length - 1) bs s).2.wr.getLast? = _
        rw [r4]; simp
      · show w.off + _ = _
        rw [ho]
    · show ((cWrite (s.wr.length - 1) bs s).1.1 : Int) = _
      rw [r1]
    · intro h
      have h' : (cWrite (s.wr.length - 1) bs s).1.2 = none := h
      rw [r1] at h'
      refine ⟨c3.1 h', ?_⟩
      show (cWrite (s.wr.length - 1) bs s).1.1 = _
      rw [r1]; exact c3.1 h'
    · refine ⟨r2.trans hitems, ?_⟩
      show checkInv (cWrite (s.wr.length - 1) bs s).2
      intro x hx
      rw [r4] at hx
      unfold CSt.item
      rw [r2]
      rcases List.mem_append.1 hx with hx | hx
      · exact hinv x (by rw [hws]; exact List.mem_append_left _ hx)
      · rw [List.mem_singleton.1 hx]
        refine ⟨?_, hw.2.1, hle⟩
        show s.items.find? (·.path = w.item.path) = _
        rw [hp]; exact hw.1
    · intro q k n _ hq hn
      show checkNode (cWrite (s.wr.length - 1) bs s).2 q = some n
      rw [← hn]
      show _ = checkNode s q
      unfold checkNode CSt.item
      rw [r2, r3 q (by rw [hp]; exact hq), lastW_snoc _ _ _ r4, lastW_snoc _ _ _ hws]
      have : ¬ w.item.path = q := by rw [hp]; exact fun h => hq h.symm
      simp [this]
  write_deaf := fun _ _ _ h => h.elim
  close_spec := fun _ h => ⟨h, rfl⟩
  reborn_spec := fun _ h => ⟨h, rfl⟩
  sync_spec := fun _ h => ⟨h, rfl, fun _ _ h => h, fun h => h⟩

end Savior
