import Verif.FolderLemmas
/-!
# FolderSink: what each operation does
-/

namespace Savior
namespace FSink

theorem createFile_dest {cfg : FCfg} {B : Path} (hB : cfg.Base B) {e : Entry} {s s' : OS} {i : Nat} (h : createFile cfg e s = (.ok i, s')) :
    ∃ dst D c N, cfg.destPath e.path = .ok dst ∧ cleanComps dst = D ++ [c] ∧ AllOrd (D ++ [c]) ∧ D ++ [c] = B ++ N ∧
      lexWalk B (splitSlash e.path) = B ++ N := by
  cases hd : cfg.destPath e.path with
  | error x => unfold createFile at h; rw [hd] at h; cases h
  | ok dst =>
    obtain ⟨N, h1, h2, h3, h4⟩ := destPath_ok hB hd
    have ho : AllOrd (B ++ N) := by
      intro x hx
      rcases List.mem_append.mp hx with hx | hx
      · exact base_ord hB x hx
      · exact h1 x hx
    rcases List.eq_nil_or_concat (B ++ N) with h0 | ⟨D, c, hc⟩
    · exfalso
      unfold createFile at h
      simp only [hd, names, h3, h0, List.dropLast_nil] at h
      have hst : s.fs.stat [] = .found [] .dir := walk_nil
      rw [OS.mkdirAll_exists cfg.flt hst] at h
      have hls : s.fs.lstat [] = .found [] .dir := walk_nil
      simp only [hls] at h
      unfold OS.openCreate at h
      cases hf : cfg.flt s.tick with
      | some f => simp only [hf] at h; cases h
      | none => simp only [hf, hst] at h; cases h
    · rw [List.concat_eq_append] at hc
      exact ⟨dst, D, c, N, rfl, h3.trans hc, hc ▸ ho, hc.symm, h4⟩

theorem closeAt_fs (cfg : FCfg) (k : Nat) (s : FSink) : (s.closeAt cfg k).2.os.fs = s.os.fs ∧ (s.closeAt cfg k).2.ws.length = s.ws.length ∧
    (s.closeAt cfg k).2.reg = s.reg := by
  unfold closeAt
  split
  · refine ⟨?_, by simp, rfl⟩
    simp only
    unfold OS.quietCall
    split <;> rfl
  · exact ⟨rfl, rfl, rfl⟩

theorem close_fs (cfg : FCfg) (s : FSink) : (s.close cfg).2.os.fs = s.os.fs ∧ (s.close cfg).2.ws.length = s.ws.length := by
  unfold close
  split
  · exact ⟨rfl, rfl⟩
  · exact ⟨(closeAt_fs cfg _ s).1, (closeAt_fs cfg _ s).2.1⟩

theorem truncate_cases (flt : Faults) (i : Nat) (n : Int) (s : OS) :
    (∃ e, (s.truncate flt i n).1 = some e ∧ (s.truncate flt i n).2.fs = s.fs) ∨
    (0 ≤ n ∧ (s.truncate flt i n).1 = none ∧ (s.truncate flt i n).2.fs = s.fs.setData i (resize (s.fs.data i) n.toNat)) := by
  unfold OS.truncate
  cases flt s.tick with
  | some f => exact Or.inl ⟨_, rfl, rfl⟩
  | none =>
    simp only
    split
    · exact Or.inl ⟨_, rfl, rfl⟩
    · exact Or.inr ⟨by omega, rfl, rfl⟩

/-- A successful `GetWriter`. -/
theorem getWriter_spec {cfg : FCfg} {B : Path} (hB : cfg.Base B) {e : Entry} (hi : shouldIgnore e.path = false) {s : FSink} (ht : s.os.fs.Tree)
    (h : (s.getWriter cfg e).1 = none) :
    ∃ P q i fs1, P = lexWalk B (splitSlash e.path) ∧ Opened cfg e P q i s.os.fs fs1 ∧ 0 ≤ e.woff ∧
      (s.getWriter cfg e).2.os.fs = fs1.setData i (resize (fs1.data i) e.woff.toNat) ∧
      (s.getWriter cfg e).2.ws.length = s.ws.length + 1 ∧ (s.getWriter cfg e).2.ws[s.ws.length]? = some (.real i e.woff.toNat true) ∧
      (s.getWriter cfg e).2.reg = some s.ws.length := by
  unfold getWriter at h ⊢
  simp only [hi, Bool.false_eq_true, if_false] at h ⊢
  cases hc : createFile cfg e s.os with
  | mk c1 c2 =>
    rw [hc] at h
    cases c1 with
    | error x => cases h
    | ok i =>
      obtain ⟨dst, D, c, N, hd, hP, ho, hN, hL⟩ := createFile_dest hB hc
      obtain ⟨q, hq⟩ := createFile_spec hd hP ho ht hc
      simp only at h ⊢
      have tc := truncate_cases cfg.flt i e.woff c2
      generalize c2.truncate cfg.flt i e.woff = t at h tc ⊢
      obtain ⟨t1, t2⟩ := t
      simp only at h tc ⊢
      rcases tc with ⟨x, a, b⟩ | ⟨hw, a, b⟩
      · subst a; cases h
      · subst a
        simp only
        obtain ⟨k1, k2⟩ := close_fs cfg { s with os := t2 }
        refine ⟨D ++ [c], q, i, c2.fs, by rw [hL, hN], hq, hw, by rw [k1]; exact b, by simp [k2], ?_, by rw [k2]⟩
        simp only at k2
        simp [k2]

theorem write_cases (cfg : FCfg) (k : Nat) (bs : List Byte) (s : FSink) (i o : Nat) (h : s.ws[k]? = some (.real i o true)) :
    (∃ e n, (s.writeAt cfg k bs).1.2.2 = some e ∧ n ≤ bs.length ∧ (s.writeAt cfg k bs).1.1 = n ∧ (s.writeAt cfg k bs).1.2.1 = n ∧
      (s.writeAt cfg k bs).2.os.fs = s.os.fs.setData i (pwrite (s.os.fs.data i) o (bs.take n)) ∧
      (s.writeAt cfg k bs).2.ws = s.ws.set k (.real i (o + n) true) ∧ (s.writeAt cfg k bs).2.reg = s.reg) ∨
    ((s.writeAt cfg k bs).1 = ((bs.length, (bs.length : Int), none) : Nat × Int × Option Err) ∧ (s.writeAt cfg k bs).2.os.fs = s.os.fs.setData i (pwrite (s.os.fs.data i) o bs) ∧
      (s.writeAt cfg k bs).2.ws = s.ws.set k (.real i (o + bs.length) true) ∧ (s.writeAt cfg k bs).2.reg = s.reg) := by
  unfold writeAt OS.write
  rw [h]
  simp only
  cases cfg.flt s.os.tick with
  | some f =>
    refine Or.inl ⟨_, min f.part bs.length, rfl, by omega, rfl, rfl, ?_, rfl, trivial⟩
    have : bs.take (min f.part bs.length) = bs.take f.part := by rw [List.take_eq_take_iff]; omega
    rw [this]
  | none => exact Or.inr ⟨rfl, rfl, rfl, trivial⟩

end FSink

theorem pwrite_nil (c : List Byte) (o : Nat) : pwrite c o [] = c := by simp [pwrite]

theorem pwrite_end (c bs : List Byte) : pwrite c c.length bs = c ++ bs := by
  unfold pwrite
  split
  · rename_i h; simp [h]
  · simp [resize]

theorem resize_length (c : List Byte) (n : Nat) : (resize c n).length = n := by simp [resize]; omega

theorem pwrite_append (c : List Byte) (o : Nat) (xs ys : List Byte) : pwrite (pwrite c o xs) (o + xs.length) ys = pwrite c o (xs ++ ys) := by
  by_cases hx : xs = []
  · subst hx; simp [pwrite]
  · by_cases hy : ys = []
    · subst hy; simp [pwrite]
    · unfold pwrite
      rw [if_neg hx, if_neg hy, if_neg (by simp [hx])]
      have hl : (resize c o ++ xs).length = o + xs.length := by simp [resize_length]
      have h1 : resize (resize c o ++ xs ++ c.drop (o + xs.length)) (o + xs.length) = resize c o ++ xs := by
        unfold resize
        rw [List.take_append_of_le_length (by have := hl; unfold resize at this; omega)]
        rw [List.take_of_length_le (by have := hl; unfold resize at this; omega)]
        have h0 : o + xs.length - (List.take o c ++ List.replicate (o - c.length) 0 ++ xs ++ List.drop (o + xs.length) c).length = 0 := by
          have := hl; unfold resize at this; simp only [List.length_append] at this ⊢; omega
        rw [h0]
        simp
      have h2 : (resize c o ++ xs ++ c.drop (o + xs.length)).drop (o + xs.length + ys.length) = c.drop (o + (xs ++ ys).length) := by
        rw [← List.drop_drop, ← hl, List.drop_left, List.drop_drop, hl]
        congr 1
        simp; omega
      rw [h1, h2]
      simp

end Savior
