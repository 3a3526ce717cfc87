import Verif.WrapLemmas
import Verif.SeekLemmas
import Verif.Drain
/-!
# Stacks of decompressing sources over a seek source
-/

namespace Savior
open Seek (Geo GoodS AtS)

/-- One decompressing layer: which source kind (flatesource.go:12, gzipsource.go:13, bzip2source.go:12, brotlisource.go:12), and its decompressor. -/
structure Layer where
  cfg : WrapCfg
  D : Decomp

/-- A stack of decompressing sources (outermost first) over a seek source, e.g.
`gzipsource.New(bzip2source.New(seeksource))`. `F` is the step budget of the decompressors' loops. -/
def stackM (F : Nat) : List Layer → SourceM
  | [] => seekM
  | l :: ls => wrapM l.cfg l.D (stackM F ls) F

/-- The freshly constructed stack over a seek source (`New`: flatesource.go:33-38, gzipsource.go:37-42, bzip2source.go:34-39, brotlisource.go:32-37). -/
def stackNew (F : Nat) : (ls : List Layer) → SeekSt → (stackM F ls).St
  | [], s => s
  | l :: ls, s => Wrap.new l.D (stackM F ls) (stackNew F ls s)

/-- **Specification**: what a stack stands for: decode layer by layer, innermost first. -/
def stackDecode : List Layer → List Byte → List Byte × Bool
  | [], raw => (raw, true)
  | l :: ls, raw => l.D.decode l.D.start (stackDecode ls raw).1 (stackDecode ls raw).2

/-- A step budget that suffices (the real loops have none). -/
def stackRank : List Layer → List Byte → Nat → Nat
  | [], _, size => size
  | l :: ls, raw, size => (l.D.decode l.D.start (stackDecode ls raw).1 (stackDecode ls raw).2).1.length + 2 * stackRank ls raw size + 2

/-- The layers' decompressors obey the decompressor contract, and a layer that reads its input byte by byte sits only on
layers whose `ReadByte` is reliable. -/
def WellStacked : List Layer → Prop
  | [] => True
  | l :: ls => l.D.Law ∧ ((∀ st, l.D.ask st ≠ 0) ∨ ∀ m ∈ ls, m.D.ByteLaw) ∧ WellStacked ls

/-- No layer's `Save` fails, and inner layers do not mix data with EOF. -/
def StackNice (sched : Nat → RsAct) : List Layer → Prop
  | [] => NoFault sched
  | [l] => (NoFault sched ∧ LazySched sched) ∧ ∀ st, l.D.canSave st = true → l.D.saveOK st = true
  | l :: m :: ls => StackNice sched (m :: ls) ∧ m.D.eager = false ∧ ∀ st, l.D.canSave st = true → l.D.saveOK st = true

/-- The top layer's decompressor never refuses its own checkpoints. -/
def StackExact : List Layer → Prop
  | [] => True
  | l :: _ => ∀ st, l.D.canSave st = true → l.D.dec (l.D.enc st) = some st

theorem stack_lawful (g : Geo) (F : Nat) (s : SeekSt) (hs : GoodS g s) (hq : s.wantSave = false) :
    ∀ ls, WellStacked ls → stackRank ls g.stream g.size ≤ F →
    ∃ L : Lawful (stackM F ls) (stackDecode ls g.stream).1 (stackDecode ls g.stream).2,
      ((∀ m ∈ ls, m.D.ByteLaw) → LawfulByte L) ∧ L.Good (stackNew F ls s) ∧ L.Quiet (stackNew F ls s) ∧
      (StackNice g.sched ls → L.nice) ∧ (StackExact ls → L.exact) ∧ L.rankMax = stackRank ls g.stream g.size ∧
      (L.lazy ↔ match ls with | [] => LazySched g.sched | l :: _ => l.D.eager = false) := by
  intro ls
  induction ls with
  | nil =>
    intro _ _
    exact ⟨seekLawful g, fun _ => seekLawfulByte g, hs, hq, id, fun _ => trivial, rfl, Iff.rfl⟩
  | cons l ls ih =>
    intro hw hF
    obtain ⟨hlaw, hb, hw'⟩ := hw
    have hF' : stackRank ls g.stream g.size + 2 ≤ F := by
      simp only [stackRank] at hF; omega
    obtain ⟨L, k1, k2, k3, k4, k5, k6, k7⟩ := ih hw' (by omega)
    have hB : (∀ st, l.D.ask st ≠ 0) ∨ LawfulByte L := hb.imp id k1
    have hFL : L.rankMax + 2 ≤ F := by rw [k6]; exact hF'
    refine ⟨wrapLawful l.cfg hlaw hB hFL, ?_, ⟨k2, fun _ => k3⟩, ⟨k3, ?_⟩, ?_, id, ?_, Iff.rfl⟩
    · intro hm
      exact wrapLawfulByte l.cfg hlaw (hm l (by simp)) (k1 fun m hm' => hm m (by simp [hm'])) hFL
    · intro r hr; cases hr
    · intro hn
      cases ls with
      | nil => exact ⟨k4 hn.1.1, k7.mpr hn.1.2, hn.2⟩
      | cons m ms => exact ⟨k4 hn.1, k7.mpr hn.2.1, hn.2.2⟩
    · show _ + 2 * L.rankMax + 2 = _
      rw [k6]; rfl

end Savior
