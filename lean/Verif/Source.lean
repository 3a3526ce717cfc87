import Verif.Rs
/-!
# Sources

`SourceM` is the `savior.Source` interface (source.go:37-61) as a record of functions over a state. A save consumer is
a callback over a state `C` of its own, threaded through `read`/`readByte`; this makes callbacks that mutate other
objects ordinary state passing.
-/

namespace Savior

/-- A registered `SourceSaveConsumer` (source.go:91-96): receives a checkpoint, changes the consumer's state, may fail. -/
abbrev Callback (C : Type) := Ckpt → C → C × Option Err

/-- The result of `Read`: the bytes stored in the caller's buffer and the error. -/
abbrev ReadRes := List Byte × Option Err

/-- `savior.Source` (source.go:37-61). `setSSC present` is `SetSourceSaveConsumer(ssc)` with `ssc != nil` iff `present`;
the consumer itself is the callback given to `read`. `progress` is the pair (numerator, denominator) of the float64 the
code returns. -/
structure SourceM where
  St : Type
  resume : Option Ckpt → St → Except Err Int × St
  setSSC : Bool → St → St
  wantSave : St → St
  read : {C : Type} → Callback C → Nat → St → C → ReadRes × St × C
  readByte : {C : Type} → Callback C → St → C → (Byte × Option Err) × St × C
  progress : St → Int × Int

/-- `DiscardByRead` (source.go:111-125): read and throw away until `delta` bytes are gone or an error occurs.
The loop gets a step budget `fuel`. The callback is whatever save consumer is registered on the source. -/
def discard (S : SourceM) {C : Type} (cb : Callback C) : Nat → Int → S.St → C → Option Err × S.St × C
  | 0, delta, s, c => if delta > 0 then (some .diverge, s, c) else (none, s, c)
  | fuel + 1, delta, s, c =>
    if delta > 0 then
      let toRead := min delta 4096
      let r := S.read cb toRead.toNat s c
      match r.1.2 with
      | some e => (some (.wrapped e), r.2.1, r.2.2)
      | none => discard S cb fuel (delta - r.1.1.length) r.2.1 r.2.2
    else (none, s, c)

/-- What a callback does to its state when an optional checkpoint is delivered. -/
def deliver {C : Type} (cb : Callback C) (em : Option Ckpt) (c : C) : C :=
  match em with
  | none => c
  | some ck => (cb ck c).1

/-- **Specification of a resumable source.** `Lawful S Y clean`: states of `S` can be read as cursors over the byte
string `Y`; `clean` says whether the stream ends with a clean EOF (as opposed to an error after `Y`).

* `Good s`: the source may be resumed; `Live s`: it has been resumed before; `At s o`: it has been resumed and its cursor is at offset `o`;
  `CkFor ck o`: `ck` is a checkpoint for offset `o`; `Quiet s`: no save request is pending.
* `nice`: the environment (I/O, decompressor save function) does not fail; `lazy`: EOF is never reported together with
  data.
* `exact`: a checkpoint is never refused (a decompressor may refuse its own, the source then restarts at 0);
  `early`: a save may be requested before the first `Resume`; `plain`: it has no source of its own, and serves a pending save request with
  the next read.
* `rank` decreases with every successful read, and is bounded: reads cannot succeed forever. -/
structure Lawful (S : SourceM) (Y : List Byte) (clean : Bool) where
  Good : S.St → Prop
  Live : S.St → Prop
  At : S.St → Nat → Prop
  CkFor : Ckpt → Nat → Prop
  Quiet : S.St → Prop
  nice : Prop
  lazy : Prop
  exact : Prop
  early : Prop
  plain : Prop
  rank : S.St → Nat
  rankMax : Nat
  at_live : ∀ {s o}, At s o → Live s
  live_good : ∀ {s}, Live s → Good s
  /-- progress is a fraction between 0 and 1 -/
  progress_spec : ∀ {s}, Live s → 0 ≤ (S.progress s).1 ∧ (S.progress s).1 ≤ (S.progress s).2 ∧ 0 < (S.progress s).2
  live_wantSave : ∀ {s}, Live s → Live (S.wantSave s)
  live_setSSC : ∀ {s} b, Live s → Live (S.setSSC b s)
  at_le : ∀ {s o}, At s o → o ≤ Y.length
  ck_le : ∀ {ck o}, CkFor ck o → o ≤ Y.length
  ck_off : ∀ {ck o}, CkFor ck o → ck.offset = o
  rank_le : ∀ {s o}, At s o → rank s ≤ rankMax
  rank_wantSave : ∀ s, rank (S.wantSave s) = rank s
  rank_setSSC : ∀ s b, rank (S.setSSC b s) = rank s
  at_wantSave : ∀ {s o}, At s o → At (S.wantSave s) o
  at_setSSC : ∀ {s o} b, At s o → At (S.setSSC b s) o
  good_wantSave : ∀ {s}, early → Good s → Good (S.wantSave s)
  good_setSSC : ∀ {s} b, Good s → Good (S.setSSC b s)
  quiet_setSSC : ∀ {s} b, Quiet s → Quiet (S.setSSC b s)
  /-- resuming from scratch: offset 0, or an error that a nice environment excludes unless nothing can be read at all -/
  resume_nil : ∀ {s}, Good s →
    (∃ s', S.resume none s = (.ok 0, s') ∧ At s' 0 ∧ (Quiet s → Quiet s')) ∨
    (∃ e s', S.resume none s = (.error e, s') ∧ (nice → clean = false ∧ Y = []) ∧ e ≠ .panic ∧ e ≠ .diverge)
  /-- resuming from a checkpoint: its offset or 0 -/
  resume_ck : ∀ {s ck o}, Good s → CkFor ck o →
    (∃ (o' : Nat) (s' : S.St), S.resume (some ck) s = (.ok (o' : Int), s') ∧ (o' = o ∨ o' = 0) ∧ (exact → o' = o) ∧ At s' o' ∧
      (Quiet s → Quiet s')) ∨
    (∃ e s', S.resume (some ck) s = (.error e, s') ∧ (nice → clean = false ∧ Y = []) ∧ e ≠ .panic ∧ e ≠ .diverge)
  /-- reading: an exact piece of `Y` from the cursor on; at most one checkpoint is emitted, and it is for the offset the
  cursor had *before* this read's bytes. The outcomes: progress; EOF, exactly at the end of `Y`; the error the save
  consumer returned, with no bytes; another error, in a nice environment only when `Y` is exhausted and not clean. -/
  read_spec : ∀ {C : Type} (cb : Callback C) {s o} (n : Nat) (c : C), At s o → 0 < n →
    ∃ (bs : List Byte) (e : Option Err) (s' : S.St) (em : Option Ckpt),
      S.read cb n s c = ((bs, e), s', deliver cb em c) ∧
      (∀ ck, em = some ck → CkFor ck o) ∧
      (Quiet s → em = none ∧ Quiet s') ∧
      bs.length ≤ n ∧ bs = (Y.drop o).take bs.length ∧
      Live s' ∧
      ((e = none ∧ At s' (o + bs.length) ∧ rank s' < rank s) ∨
       (e = some .eof ∧ At s' (o + bs.length) ∧ o + bs.length = Y.length ∧ clean = true ∧ (lazy → bs = [])) ∨
       (∃ ck x, em = some ck ∧ (cb ck c).2 = some x ∧ e = some x ∧ bs = [] ∧ At s' o) ∨
       (∃ x, e = some x ∧ x ≠ .eof ∧ x ≠ .panic ∧ x ≠ .diverge ∧ x ≠ .readyToSave ∧
          (nice → clean = false ∧ o + bs.length = Y.length ∧ (lazy → bs = []))))
  /-- a successful read delivers at least one byte, unless a save was pending -/
  quiet_read : ∀ {C : Type} (cb : Callback C) {s o} (n : Nat) (c : C), At s o → 0 < n → Quiet s →
    (S.read cb n s c).1.2 = none → (S.read cb n s c).1.1 ≠ []
  plain_exact : plain → exact
  /-- a successful read of a plain source delivers at least one byte, and leaves no save request pending -/
  plain_read : plain → ∀ {C : Type} (cb : Callback C) {s o} (n : Nat) (c : C), At s o → 0 < n →
    (S.read cb n s c).1.2 = none → (S.read cb n s c).1.1 ≠ [] ∧ Quiet (S.read cb n s c).2.1
  /-- the others leave no save request pending when resumed from a checkpoint -/
  resume_quiet : ¬ plain → ∀ {s ck o x s'}, Good s → CkFor ck o → S.resume (some ck) s = (.ok x, s') → Quiet s'

/-- The `ReadByte` half of the specification, separate because decompressing sources only satisfy it under an extra
condition (see `Wrap`). An error of the save consumer never surfaces here. -/
structure LawfulByte {S : SourceM} {Y : List Byte} {clean : Bool} (L : Lawful S Y clean) : Prop where
  readByte_spec : ∀ {C : Type} (cb : Callback C) {s o} (c : C), L.At s o →
    ∃ (b : Byte) (e : Option Err) (s' : S.St) (em : Option Ckpt),
      S.readByte cb s c = ((b, e), s', deliver cb em c) ∧
      (∀ ck, em = some ck → L.CkFor ck o) ∧
      (L.Quiet s → em = none ∧ L.Quiet s') ∧
      L.Live s' ∧
      ((e = none ∧ (Y.drop o).head? = some b ∧ L.At s' (o + 1) ∧ L.rank s' < L.rank s) ∨
       (e = some .eof ∧ L.At s' o ∧ o = Y.length ∧ clean = true) ∨
       (∃ x, e = some x ∧ x ≠ .eof ∧ x ≠ .panic ∧ x ≠ .diverge ∧ x ≠ .readyToSave ∧
          (L.nice → clean = false ∧ o = Y.length)))

end Savior
