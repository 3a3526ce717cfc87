import Verif.Gob
/-!
# Which checkpoints can be kept with gob

The fields hold what their Go types can hold (`int64`, `uint32`), and the dynamic types met are registered in the program
that writes and in the one that reads.
-/

namespace Savior.Gob

/-- An `int64`. -/
def I64 (i : Int) : Prop := -2 ^ 63 ≤ i ∧ i < 2 ^ 63

def DCkFits (d : DCk) : Prop := I64 d.roff ∧ I64 d.woff

/-- A source checkpoint nested less than `N` deep. Flate and brotli checkpoints have no `Offset` of their own. -/
def CkStorable (P : Progs) : Nat → Ckpt → Prop
  | 0, _ => False
  | _ + 1, .plain o => I64 o
  | N + 1, .dec t o s k d =>
    I64 o ∧ I64 k ∧ (t = .flate ∨ t = .brotli → k = 0) ∧ DCkFits d ∧
    tagName t ∈ P.writer ∧ tagName t ∈ P.reader ∧ I64 (P.ids (tagName t)) ∧ ∀ c, s = some c → CkStorable P N c

/-- `Mode` is a `uint32`. -/
def EntryFits (e : Entry) : Prop := e.mode < 2 ^ 32 ∧ I64 e.csize ∧ I64 e.usize ∧ I64 e.woff

def TarStateFits (s : TarState) : Prop :=
  (∀ l, s.result = some l → ∀ e ∈ l, EntryFits e) ∧ ∀ t, s.tck = some t → I64 t.roff

def ECkStorable (P : Progs) (N : Nat) (c : ECkpt) : Prop :=
  (∀ x, c.srcCk = some x → CkStorable P N x) ∧ I64 c.entryIndex ∧ (∀ e, c.entry = some e → EntryFits e) ∧
  ∀ s, c.data = some s → tarName ∈ P.writer ∧ tarName ∈ P.reader ∧ I64 (P.ids tarName) ∧ TarStateFits s

/-- Encoding reports an error only if the message reaches the size limit; otherwise decoding the message gives the value that was
encoded. -/
def Survives {α : Type} (c : Coder α) (a : α) : Prop :=
  ∀ id, I64 id → ∃ n, ∀ limit, limit ≤ 2 ^ 63 →
    (n < limit → ∃ bs, marshal limit c id a = some bs ∧ unmarshal limit c bs = some a) ∧ (limit ≤ n → marshal limit c id a = none)

end Savior.Gob
