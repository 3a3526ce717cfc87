import Verif.Stack
import Verif.TarSaves
import Verif.Conduits
/-!
# Stacks of decompressing sources as sources for tar runs
-/

namespace Savior
open Seek (Geo GoodS)

/-- The checkpoints of a stack over the byte string `raw`: independent of read schedules. -/
def stackCk (raw : List Byte) : List Layer → Ckpt → Nat → Prop
  | [], ck, o => ck = .plain o ∧ o ≤ raw.length
  | l :: ls, ck, o =>
    ∃ (sck : Ckpt) (oi ri : Nat) (st : l.D.St),
      ck = .dec l.cfg.tag o (some sck) (if l.cfg.ownOffset then o else 0) ⟨ri, o, l.D.enc st⟩ ∧
      l.D.canSave st = true ∧ stackCk raw ls sck oi ∧ oi ≤ ri ∧ (ls = [] → oi < ri) ∧ ri ≤ (stackDecode ls raw).1.length ∧
      o ≤ (stackDecode (l :: ls) raw).1.length ∧
      (l.D.decode st ((stackDecode ls raw).1.drop ri) (stackDecode ls raw).2).1 = (stackDecode (l :: ls) raw).1.drop o ∧
      (l.D.decode st ((stackDecode ls raw).1.drop ri) (stackDecode ls raw).2).2 = (stackDecode (l :: ls) raw).2

theorem stack_lawful_ck (g : Geo) (F : Nat) (s : SeekSt) (hs : GoodS g s) (hq : s.wantSave = false) :
    ∀ ls, WellStacked ls → stackRank ls g.stream g.size ≤ F →
    ∃ L : Lawful (stackM F ls) (stackDecode ls g.stream).1 (stackDecode ls g.stream).2,
      ((∀ m ∈ ls, m.D.ByteLaw) → LawfulByte L) ∧ L.Good (stackNew F ls s) ∧ L.Quiet (stackNew F ls s) ∧
      (StackNice g.sched ls → L.nice) ∧ (StackExact ls → L.exact) ∧ L.rankMax = stackRank ls g.stream g.size ∧
      (L.lazy ↔ match ls with | [] => LazySched g.sched | l :: _ => l.D.eager = false) ∧
      (∀ c o, L.CkFor c o ↔ stackCk g.stream ls c o) ∧ (L.plain ↔ ls = []) := by
  intro ls
  induction ls with
  | nil =>
    intro _ _
    exact ⟨seekLawful g, fun _ => seekLawfulByte g, hs, hq, id, fun _ => trivial, rfl, Iff.rfl, fun _ _ => Iff.rfl, ⟨fun _ => rfl, fun _ => trivial⟩⟩
  | cons l ls ih =>
    intro hw hF
    obtain ⟨hlaw, hb, hw'⟩ := hw
    have hF' : stackRank ls g.stream g.size + 2 ≤ F := by
      simp only [stackRank] at hF; omega
    obtain ⟨L, k1, k2, k3, k4, k5, k6, k7, k8, k9⟩ := ih hw' (by omega)
    have hB : (∀ st, l.D.ask st ≠ 0) ∨ LawfulByte L := hb.imp id k1
    have hFL : L.rankMax + 2 ≤ F := by rw [k6]; exact hF'
    refine ⟨wrapLawful l.cfg hlaw hB hFL, ?_, ⟨k2, fun _ => k3⟩, ⟨k3, ?_⟩, ?_, id, ?_, Iff.rfl, ?_, ⟨False.elim, nofun⟩⟩
    · intro hm
      exact wrapLawfulByte l.cfg hlaw (hm l (by simp)) (k1 fun m hm' => hm m (by simp [hm'])) hFL
    · intro r hr; cases hr
    · intro hn
      cases ls with
      | nil => exact ⟨k4 hn.1.1, k7.mpr hn.1.2, hn.2⟩
      | cons m ms => exact ⟨k4 hn.1, k7.mpr hn.2.1, hn.2.2⟩
    · show _ + 2 * L.rankMax + 2 = _
      rw [k6]; rfl
    · intro c o
      show CkW L l.cfg l.D c o ↔ _
      unfold CkW stackCk
      simp only [k8, k9]
      exact Iff.rfl

/-- A newly made stack over a file, as a source for a tar run. Whatever the read schedules `g.sched`, the stream and the
checkpoints are the same. -/
noncomputable def stackSrc (raw : List Byte) (ls : List Layer) (F : Nat) (g : Geo) (hg : g.stream = raw) (s : SeekSt) (hs : GoodS g s)
    (hq : s.wantSave = false) (hw : WellStacked ls) (hF : 2 * stackRank ls raw g.size + 3 ≤ F) :
    TarSrc (stackDecode ls raw).1 (stackDecode ls raw).2 (stackCk raw ls) F :=
  have h := stack_lawful_ck g F s hs hq ls hw (by rw [hg]; omega)
  { S := stackM F ls
    L := hg ▸ h.choose
    src := stackNew F ls s
    good := by subst hg; exact h.choose_spec.2.1
    family := by subst hg; exact h.choose_spec.2.2.2.2.2.2.2.1
    budget := by subst hg; rw [h.choose_spec.2.2.2.2.2.1]; exact hF
    conduit := stack_conduit F ls }

theorem stackSrc_quiet {raw : List Byte} {ls : List Layer} {F : Nat} {g : Geo} {hg : g.stream = raw} {s : SeekSt} {hs : GoodS g s}
    {hq : s.wantSave = false} {hw : WellStacked ls} {hF : 2 * stackRank ls raw g.size + 3 ≤ F} :
    (stackSrc raw ls F g hg s hs hq hw hF).L.Quiet (stackSrc raw ls F g hg s hs hq hw hF).src := by
  subst hg
  exact (stack_lawful_ck g F s hs hq ls hw (by omega)).choose_spec.2.2.1

theorem stackSrc_healthy {raw : List Byte} {ls : List Layer} {F : Nat} {g : Geo} {hg : g.stream = raw} {s : SeekSt} {hs : GoodS g s}
    {hq : s.wantSave = false} {hw : WellStacked ls} {hF : 2 * stackRank ls raw g.size + 3 ≤ F} (hn : StackNice g.sched ls) (he : StackExact ls) :
    (stackSrc raw ls F g hg s hs hq hw hF).Healthy := by
  subst hg
  have h := (stack_lawful_ck g F s hs hq ls hw (by omega)).choose_spec
  exact ⟨h.2.2.2.1 hn, h.2.2.2.2.1 he⟩

end Savior
