import Verif.TarView
import Verif.SeekLemmas
import Verif.ZipToy
import Verif.Conduits
/-!
# A small tar-like format, for examples

Used only to show that hypotheses can be met and to exhibit counterexamples. A member is a type byte, a name byte, a
size byte and the content; a zero type byte ends the archive.
-/

namespace Savior

/-- `body r`: `r` bytes of the current member left, then a type byte; `b1`, `b2`, `h`: within and after a header. -/
inductive TTSt
  | body (r : Nat)
  | b1 (t : Byte)
  | b2 (t n : Byte)
  | h (t n sz : Byte)
  | fin
  deriving DecidableEq, Repr

def ttFeed1 : TTSt → Byte → TTSt
  | .body 0, b => if b = 0 then .fin else .b1 b
  | .body (r + 1), _ => .body r
  | .b1 t, b => .b2 t b
  | .b2 t n, b => .h t n b
  | st, _ => st

def ttHdr (t n sz : Byte) : THdr :=
  ⟨[n], sz.toNat, 0o644, if t = 1 then .reg else if t = 2 then .dir else if t = 3 then .symlink else .other, [n + 1]⟩

def toyTar (eager : Bool) : TarFmt where
  St := TTSt
  start := .body 0
  want
    | .body 0 => .more 1
    | .body (r + 1) => .more (r + 1)
    | .b1 _ => .more 2
    | .b2 _ _ => .more 1
    | .h t n sz => .hdr (ttHdr t n sz)
    | .fin => .done
  feed xs st := xs.foldl ttFeed1 st
  opened
    | .h _ _ sz => .body sz.toNat
    | _ => .body 0
  rem
    | .body r => r
    | _ => 0
  take k st := match st with
    | .body r => .body (r - k)
    | st => st
  eofOK st := st == .body 0
  save
    | .body r => some [0, r]
    | .b1 t => some [1, t.toNat]
    | .b2 t n => some [2, t.toNat, n.toNat]
    | .h t n sz => some [3, t.toNat, n.toNat, sz.toNat]
    | .fin => some [4]
  dec
    | [0, r] => some (.body r)
    | [1, t] => some (.b1 (UInt8.ofNat t))
    | [2, t, n] => some (.b2 (UInt8.ofNat t) (UInt8.ofNat n))
    | [3, t, n, sz] => some (.h (UInt8.ofNat t) (UInt8.ofNat n) (UInt8.ofNat sz))
    | [4] => some .fin
    | _ => none
  eager := eager

theorem ttFeed_body : ∀ (xs : List Byte) (r : Nat), xs.length ≤ r → xs.foldl ttFeed1 (.body r) = .body (r - xs.length) := by
  intro xs
  induction xs with
  | nil => intro r _; rfl
  | cons b xs ih =>
    intro r h
    cases r with
    | zero => simp at h
    | succ r =>
      simp only [List.length_cons] at h
      simp only [List.foldl_cons, ttFeed1, List.length_cons]
      rw [ih r (by omega)]
      congr 1
      omega

theorem toyTar_exact (eg : Bool) : (toyTar eg).Exact := by
  intro st
  cases st <;> exact ⟨_, rfl, by simp [toyTar]⟩

theorem toyTar_law (eg : Bool) : (toyTar eg).Law where
  ask_pos {st n} h := by
    cases st with
    | body r => cases r <;> simp [toyTar] at h <;> omega
    | _ => simp [toyTar] at h <;> omega
  feed_nil st := rfl
  feed_append {st n xs ys} _ _ := List.foldl_append
  ask_rest {st n xs} h hl := by
    cases st with
    | body r =>
      cases r with
      | zero =>
        simp only [toyTar, TarWant.more.injEq] at h
        subst h
        have : xs = [] := by cases xs with
          | nil => rfl
          | cons => simp at hl
        subst this
        exact ⟨1, rfl, by simp⟩
      | succ r =>
        simp only [toyTar, TarWant.more.injEq] at h
        subst h
        have hb : (toyTar eg).feed xs (TTSt.body (r + 1)) = TTSt.body (r + 1 - xs.length) := ttFeed_body xs (r + 1) (by omega)
        rw [hb]
        have : ∃ q, r + 1 - xs.length = q + 1 := ⟨r - xs.length, by omega⟩
        obtain ⟨q, hq⟩ := this
        rw [hq]
        exact ⟨q + 1, rfl, by omega⟩
    | b1 t =>
      simp only [toyTar, TarWant.more.injEq] at h
      subst h
      match xs with
      | [] => exact ⟨2, rfl, by simp⟩
      | [x] => exact ⟨1, rfl, by simp⟩
      | _ :: _ :: _ => simp at hl; omega
    | b2 t n =>
      simp only [toyTar, TarWant.more.injEq] at h
      subst h
      match xs with
      | [] => exact ⟨1, rfl, by simp⟩
      | _ :: _ => simp at hl
    | h t n sz => simp [toyTar] at h
    | fin => simp [toyTar] at h
  start_asks := ⟨1, rfl⟩
  member_asks st k := by
    have : ∃ r, (toyTar eg).opened st = .body r := by
      cases st <;> exact ⟨_, rfl⟩
    obtain ⟨r, hr⟩ := this
    rw [hr]
    show ∃ n, (toyTar eg).want (.body (r - k)) = .more n
    cases r - k with
    | zero => exact ⟨_, rfl⟩
    | succ q => exact ⟨_, rfl⟩
  take_zero st := by cases st <;> rfl
  take_take st a b := by cases st <;> simp [toyTar, Nat.sub_sub]
  rem_take st k := by cases st <;> simp [toyTar]
  save_dec st im h := by
    right
    obtain ⟨im', a, b⟩ := toyTar_exact eg st
    rw [h] at a; cases a; exact b

/-- A directory, a file, a device, a link and another file. -/
def toyStream : List Byte := [2, 100, 0, 1, 97, 3, 10, 20, 30, 9, 120, 1, 99, 3, 108, 0, 1, 98, 2, 5, 6, 0]

/-- What it stands for. -/
def toyMembers : Members := [
  (ttHdr 2 100 0, []), (ttHdr 1 97 3, [10, 20, 30]), (ttHdr 9 120 1, []), (ttHdr 3 108 0, []), (ttHdr 1 98 2, [5, 6])]

/-- A plain source over a byte string (which need not exist in full), delivering one byte at a time. -/
def plainGeo (Y : List Byte) : Seek.Geo := ⟨Y, fun _ => ⟨0, false, none⟩, 0, Y.length⟩

/-- It, in its initial state, as a source for tar runs. -/
def plainSrc (Y : List Byte) (F : Nat) (h : 2 * Y.length + 3 ≤ F) : TarSrc (plainGeo Y).stream true (Seek.CkS (plainGeo Y)) F where
  S := seekM
  L := seekLawful (plainGeo Y)
  src := Seek.newWithSize ⟨Y, 0, fun _ => ⟨0, false, none⟩, 0⟩ Y.length
  good := ⟨rfl, rfl, rfl, rfl⟩
  family _ _ := Iff.rfl
  budget := h
  conduit := seek_conduit

theorem plain_stream (Y : List Byte) : (plainGeo Y).stream = Y := by
  simp [plainGeo, Seek.Geo.stream, window]

/-- A run over the toy stream. -/
def toyTarRun (ck : Option ECkpt) (k : MemSt) (u : List (Except Err Action)) :
    Except Err (List Entry) × seekM.St × XW (memSink noFaults) listCons :=
  tarRun (plainSrc toyStream 100 (by decide)) (toyTar true) (fun _ => (0, 1)) (memSink noFaults) listCons ck k u

/-- First run: stopped within `a`, after its first byte; then the process is restarted. -/
def tarCk1 : ECkpt := ⟨some (.plain 7), 1, some ⟨[97], .file, 0o644, 0, 3, 1, []⟩, (0, 1), some ⟨some [], some ⟨7, [0, 2]⟩⟩⟩
def tarSink1 : MemSt := (memSink noFaults).reborn (toyTarRun none memEmpty [.ok .stop]).2.2.sink
/-- Second run: stopped within `b`. -/
def tarCk2 : ECkpt := ⟨some (.plain 20), 4, some ⟨[98], .file, 0o644, 0, 2, 1, []⟩, (0, 1),
  some ⟨some [⟨[97], .file, 0o644, 0, 3, 3, []⟩], some ⟨20, [0, 1]⟩⟩⟩
def tarSink2 : MemSt := (toyTarRun (some tarCk1) tarSink1 [.ok .cont, .ok .stop]).2.2.sink

theorem tar_run1 : (toyTarRun none memEmpty [.ok .stop]).1 = .error .stop := by rfl
theorem tar_save1 : lastSave (toyTarRun none memEmpty [.ok .stop]).2.2.log = some tarCk1 := by rfl
theorem tar_run2 : (toyTarRun (some tarCk1) tarSink1 [.ok .cont, .ok .stop]).1 = .error .stop := by rfl
theorem tar_save2 : lastSave (toyTarRun (some tarCk1) tarSink1 [.ok .cont, .ok .stop]).2.2.log = some tarCk2 := by rfl
theorem tar_success : (toyTarRun (some tarCk2) tarSink2 []).1 =
    .ok [⟨[97], .file, 0o644, 0, 3, 3, []⟩, ⟨[98], .file, 0o644, 0, 2, 2, []⟩] := by rfl

theorem tar_stop1 : TarStops (plainGeo toyStream).stream true (Seek.CkS (plainGeo toyStream)) 100 (toyTar true) (memSink noFaults) none memEmpty
    (some tarCk1) tarSink1 :=
  TarStops.step (plainSrc toyStream 100 (by decide)) (fun _ => (0, 1)) listCons [.ok .stop] TarStops.refl tar_run1 tar_save1 (Or.inr rfl)

theorem tar_stops : TarStops (plainGeo toyStream).stream true (Seek.CkS (plainGeo toyStream)) 100 (toyTar true) (memSink noFaults) none memEmpty
    (some tarCk2) tarSink2 :=
  TarStops.step (plainSrc toyStream 100 (by decide)) (fun _ => (0, 1)) listCons [.ok .cont, .ok .stop] tar_stop1 tar_run2 tar_save2 (Or.inl rfl)

end Savior
