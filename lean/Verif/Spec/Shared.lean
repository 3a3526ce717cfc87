import Verif.Spec.Cursor
/-!
# Specification: one of several sources over the same file

What the user of one seek source sees while other sources made from the same file (the whole, or other sections of it) are used too.
-/

namespace Savior

/-- What happens, from the point of view of one source: a call on it and its result; or `Resume`, `Read` or `ReadByte` called on another
source over the same file. -/
inductive ShEv
  | call (op : SrcOp) (out : SrcOut)
  | other

/-- The cursor (`dead` is not used), whether a save is wanted, whether a save consumer is set, and for every checkpoint emitted so far its
offset; `none` for a checkpoint emitted while there was no valid cursor. -/
structure ShSt where
  cur : Cur
  want : Bool
  ssc : Bool
  cks : List (Option Nat)

/-- The bytes of the source, its declared size (there may be less bytes, if the file was cut meanwhile) and whether the file never fails. -/
structure ShCfg where
  Y : List Byte
  size : Nat
  nice : Prop

/-- What a save consumer is handed at offset `o`. -/
def ShCfg.saves (p : ShCfg) (want ssc : Bool) (o : Nat) (em : List (Int × Option Err)) : Prop :=
  if want ∧ ssc ∧ o ≠ p.size then ∃ a, em = [((o : Int), a)] else em = []

/-- One step. -/
inductive ShStep (p : ShCfg) : ShSt → ShEv → ShSt → Prop
  /-- `Resume(nil)` always puts the cursor at the start -/
  | resumeNil {c w b ks} : ShStep p ⟨c, w, b, ks⟩ (.call .resumeNil (.resumed (.ok 0))) ⟨.at 0, w, b, ks⟩
  | resumeNilErr {c w b ks e} : ¬ p.nice → ShStep p ⟨c, w, b, ks⟩ (.call .resumeNil (.resumed (.error e))) ⟨.lost, w, b, ks⟩
  /-- and `Resume` of a checkpoint emitted with a valid cursor, to the place it was emitted at -/
  | resumeCk {c w b ks i} {o : Nat} : ks[i]? = some (some o) →
      ShStep p ⟨c, w, b, ks⟩ (.call (.resumeCk i) (.resumed (.ok o))) ⟨.at o, w, b, ks⟩
  | resumeCkErr {c w b ks i e} {o : Nat} : ks[i]? = some (some o) → ¬ p.nice →
      ShStep p ⟨c, w, b, ks⟩ (.call (.resumeCk i) (.resumed (.error e))) ⟨.lost, w, b, ks⟩
  | resumeBad {c w b ks i r} : ks[i]? = some .none → ShStep p ⟨c, w, b, ks⟩ (.call (.resumeCk i) (.resumed r)) ⟨.lost, w, b, ks⟩
  | resumeNoCk {c w b ks i} : ks[i]? = .none → ShStep p ⟨c, w, b, ks⟩ (.call (.resumeCk i) .none) ⟨c, w, b, ks⟩
  /-- with a valid cursor a read delivers at least one byte, the next ones -/
  | data {o w b ks n} {bs : List Byte} {em} : bs ≠ [] → bs.length ≤ n + 1 → bs = (p.Y.drop o).take bs.length → p.saves w b o em →
      ShStep p ⟨.at o, w, b, ks⟩ (.call (.read n) (.data bs .none em))
        ⟨.at (o + bs.length), w && o == p.size, b, ks ++ em.map fun _ => some o⟩
  | eof {o w b ks n} {bs : List Byte} {em} : bs.length ≤ n + 1 → bs = p.Y.drop o → p.saves w b o em →
      ShStep p ⟨.at o, w, b, ks⟩ (.call (.read n) (.data bs (some .eof) em))
        ⟨.at p.Y.length, w && o == p.size, b, ks ++ em.map fun _ => some o⟩
  /-- an error of the file does not lose the cursor -/
  | error {o w b ks n} {bs : List Byte} {x em} : ¬ p.nice → x ≠ .eof → x ≠ .panic → bs.length ≤ n + 1 → bs = (p.Y.drop o).take bs.length →
      o + bs.length ≤ p.Y.length → p.saves w b o em →
      ShStep p ⟨.at o, w, b, ks⟩ (.call (.read n) (.data bs (some x) em))
        ⟨.at (o + bs.length), w && o == p.size, b, ks ++ em.map fun _ => some o⟩
  | byte {o : Nat} {w b ks y em} : p.Y[o]? = some y → p.saves w b o em →
      ShStep p ⟨.at o, w, b, ks⟩ (.call .readByte (.byte y .none em)) ⟨.at (o + 1), w && o == p.size, b, ks ++ em.map fun _ => some o⟩
  | byteEof {o : Nat} {w b ks y em} : o = p.Y.length → p.saves w b o em →
      ShStep p ⟨.at o, w, b, ks⟩ (.call .readByte (.byte y (some .eof) em)) ⟨.at o, w && o == p.size, b, ks ++ em.map fun _ => some o⟩
  | byteErr {o : Nat} {w b ks y x em} : ¬ p.nice → x ≠ .eof → x ≠ .panic → p.saves w b o em →
      ShStep p ⟨.at o, w, b, ks⟩ (.call .readByte (.byte y (some x) em)) ⟨.at o, w && o == p.size, b, ks ++ em.map fun _ => some o⟩
  | wantSave {c w b ks} : ShStep p ⟨c, w, b, ks⟩ (.call .wantSave .none) ⟨c, true, b, ks⟩
  | setSSC {c w b b' ks} : ShStep p ⟨c, w, b, ks⟩ (.call (.setSSC b') .none) ⟨c, w, b', ks⟩
  /-- a source that was never resumed refuses to be read -/
  | freshRead {w b ks n} : ShStep p ⟨.fresh, w, b, ks⟩ (.call (.read n) (.data [] (some (.wrapped .uninit)) [])) ⟨.fresh, w, b, ks⟩
  | freshByte {w b ks} : ShStep p ⟨.fresh, w, b, ks⟩ (.call .readByte (.byte 0 (some (.wrapped .uninit)) [])) ⟨.fresh, w, b, ks⟩
  /-- without a valid cursor nothing is claimed about reads -/
  | lostRead {w b ks n bs e em w'} : ShStep p ⟨.lost, w, b, ks⟩ (.call (.read n) (.data bs e em)) ⟨.lost, w', b, ks ++ em.map fun _ => .none⟩
  | lostByte {w b ks y e em w'} : ShStep p ⟨.lost, w, b, ks⟩ (.call .readByte (.byte y e em)) ⟨.lost, w', b, ks ++ em.map fun _ => .none⟩
  /-- using another source over the same file takes the cursor away, and nothing else -/
  | other {c w b ks} : ShStep p ⟨c, w, b, ks⟩ .other ⟨match c with | .fresh => .fresh | _ => .lost, w, b, ks⟩

/-- A whole history. -/
inductive ShRun (p : ShCfg) : ShSt → List ShEv → ShSt → Prop
  | nil {s} : ShRun p s [] s
  | cons {s ev s' h s''} : ShStep p s ev s' → ShRun p s' h s'' → ShRun p s (ev :: h) s''

end Savior
