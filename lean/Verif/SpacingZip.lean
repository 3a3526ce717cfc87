import Verif.SpacingFlate
/-!
# Checkpoint spacing in zip archives with compressed members, from any checkpoint of an earlier run (for C91)
-/

namespace Savior
open Seek (Geo AtS)

/-- Every checkpoint handed to the save consumer is a `P`. -/
def SavedOk (P : ECkpt → Prop) (log : List Ev) : Prop := ∀ ck ∈ savedCks log, P ck

theorem savedCks_snoc (log : List Ev) (ev : Ev) : savedCks (log ++ [ev]) = savedCks log ++ (match ev with | .save ck _ => [ck] | _ => []) := by
  unfold savedCks
  rw [saves_append, List.map_append]
  cases ev <;> rfl

theorem SavedOk.other {P : ECkpt → Prop} {log : List Ev} {ev : Ev} (h : SavedOk P log) (hev : ∀ l, savedCks (l ++ [ev]) = savedCks l) : SavedOk P (log ++ [ev]) := by
  intro ck hc
  rw [hev] at hc
  exact h ck hc

theorem SavedOk.save {P : ECkpt → Prop} {log : List Ev} {ck : ECkpt} {a : Except Err Action} (h : SavedOk P log) (hck : P ck) : SavedOk P (log ++ [.save ck a]) := by
  intro c hc
  rw [savedCks_snoc] at hc
  rcases List.mem_append.mp hc with hc | hc
  · exact h c hc
  · simp only [List.mem_singleton] at hc
    rw [hc]; exact hck

section
variable {K : SinkM} {V : SaveCons} {u0 : V.St} {T G : Nat} {P : ECkpt → Prop} {i : Nat}

/-- What is known while member `i` is extracted. -/
def ZipHold (P : ECkpt → Prop) (i : Nat) (w : XW K V) : Prop := w.ck.entryIndex = i ∧ SavedOk P w.log

theorem zipOnSave_hold {total : Int} {sck : Ckpt} {w : XW K V} (hP : ∀ ck : ECkpt, ck.entryIndex = i → ck.srcCk = some sck → P ck) (h : ZipHold P i w) :
    ZipHold P i (zipOnSave total sck w).1 := by
  obtain ⟨h1, h2⟩ := h
  unfold zipOnSave
  dsimp only
  have hs : SavedOk P (w.log ++ [.sync (K.sync w.sink).1]) := h2.other fun l => by rw [savedCks_snoc]; simp
  split
  · exact ⟨h1, hs⟩
  · split
    · exact ⟨h1, hs.save (hP _ h1 rfl)⟩
    · exact ⟨h1, hs.save (hP _ h1 rfl)⟩
    · exact ⟨h1, hs.save (hP _ h1 rfl)⟩

theorem zipIO_owing {S : SourceM} {Ok : S.St → Prop} {due : S.St → Nat → Prop} {Ck : Ckpt → Prop} (H : OweSrc S G Ok due Ck)
    (hP : ∀ (ck : ECkpt) sck, ck.entryIndex = i → ck.srcCk = some sck → Ck sck → P ck) (total : Int) :
    OweIO (zipIO (K := K) (V := V) S total) V u0 (T + G + 32768) G (fun w => Ok w.1 ∧ ZipHold P i w.2) (fun w => w.2.log) (fun w => w.2.cons) (fun w k => due w.1 k) where
  read w hok hre hsp := by
    obtain ⟨s, w⟩ := w
    obtain ⟨hok, hh⟩ := hok
    replace hok : Ok s := hok
    replace hh : ZipHold P i w := hh
    replace hre : ConsReach V u0 w.cons := hre
    replace hsp : Spread (T + G + 32768) w.log := hsp
    have key := H.read (zipOnSave (K := K) (V := V) total) 32768 s w hok
    have e1 : (zipIO (K := K) (V := V) S total).read (s, w) = ((S.read (zipOnSave total) 32768 s w).1, (S.read (zipOnSave total) 32768 s w).2) := rfl
    rw [e1]
    generalize S.read (zipOnSave (K := K) (V := V) total) 32768 s w = R at *
    obtain ⟨⟨bs, e⟩, s', w'⟩ := R
    simp only at key ⊢
    obtain ⟨a, b, c⟩ := key
    rcases c with ⟨rfl, c⟩ | ⟨c1, sck, c2, rfl⟩
    · exact ⟨⟨a, hh⟩, b, Or.inl ⟨rfl, rfl, c⟩⟩
    · have h : Spaced V u0 (T + G) w.log w.cons True := ⟨hsp, hre, fun _ => Or.inl trivial⟩
      obtain ⟨d1, d2, d3⟩ := zipOnSave_spaced (total := total) (sck := sck) (q := False) h
      exact ⟨⟨a, zipOnSave_hold (fun ck x y => hP ck sck x y c2) hh⟩, b, Or.inr ⟨c1, d1, d2, fun hs => (d3 hs).resolve_left id⟩⟩
  write bs w hok := ⟨⟨hok.1, hok.2.1, hok.2.2.other fun l => by rw [savedCks_snoc]; simp⟩, ⟨_, _, rfl⟩, rfl, fun _ => id⟩
  emit w hok := ⟨⟨hok.1, hok.2.1, hok.2.2.other fun l => by rw [savedCks_snoc]; simp⟩, ⟨_, rfl⟩, rfl, fun _ => id⟩
  should n w hok := ⟨hok, rfl, rfl, rfl, fun _ => id⟩
  want w hok := by
    obtain ⟨a, b, c⟩ := H.want w.1 hok.1
    exact ⟨⟨a, hok.2⟩, rfl, rfl, b, c⟩

theorem zipIO_spaced_hold (hP : ∀ ck : ECkpt, ck.entryIndex = i → P ck) (total : Int) : SpaceIO (zipIO (K := K) (V := V) seekM total) V u0 T
    (fun w => SeekSt.hasSSC w.1 = true ∧ ZipHold P i w.2) (fun w => w.2.log) (fun w => w.2.cons) (fun w => SeekSt.wantSave w.1 = true) where
  read w hok h := by
    have key := (zipIO_spaced (K := K) (V := V) (u0 := u0) (T := T) total).read w hok.1 h
    refine ⟨⟨key.1, ?_⟩, key.2⟩
    obtain ⟨ss, w⟩ := w
    obtain ⟨hok, hh⟩ := hok
    replace hok : SeekSt.hasSSC ss = true := hok
    replace hh : ZipHold P i w := hh
    obtain ⟨a, b, c⟩ := seekRead_save (zipOnSave (K := K) (V := V) total) 32768 ss w hok
    show ZipHold P i (Seek.read (zipOnSave total) 32768 ss w).2.2
    rcases c with ⟨_, _, c⟩ | ⟨c, _⟩ | c
    · rw [c]; exact hh
    · omega
    · rw [c]
      split
      · exact zipOnSave_hold (fun ck x _ => hP ck x) hh
      · exact hh
  write bs w hok := ⟨⟨hok.1, hok.2.1, hok.2.2.other fun l => by rw [savedCks_snoc]; simp⟩, ⟨_, _, rfl⟩, rfl⟩
  emit w hok := ⟨⟨hok.1, hok.2.1, hok.2.2.other fun l => by rw [savedCks_snoc]; simp⟩, ⟨_, rfl⟩, rfl⟩
  should n w hok := ⟨hok, rfl, rfl, rfl⟩
  want w hok := ⟨hok, rfl, rfl, rfl⟩

/-- The log, the consumer and the checkpoints are as they should be. -/
def HeldOk (V : SaveCons) (u0 : V.St) (T : Nat) (P : ECkpt → Prop) (w : XW K V) : Prop := SpaceOk V u0 T w ∧ SavedOk P w.log

theorem zipOpen_held {w : XW K V} (hw : w.ck.entryIndex = i) (h : HeldOk V u0 T P w) :
    (zipOpen w).1 ≠ none ∧ HeldOk V u0 T P (zipOpen w).2 ∨ Spaced V u0 T (zipOpen w).2.log (zipOpen w).2.cons False ∧ ZipHold P i (zipOpen w).2 := by
  unfold zipOpen
  split
  · exact Or.inl ⟨nofun, h⟩
  · exact Or.inr ⟨h.1.open _ _ _ _, hw, h.2.other fun l => by rw [savedCks_snoc]; simp⟩

/-- A stored member. -/
theorem zipRunStore_held (hT : AsksWithin V u0 T) (hP : ∀ ck : ECkpt, ck.entryIndex = i → P ck) (F : Nat) (total : Int) (src : SeekSt) (w : XW K V)
    (hw : w.ck.entryIndex = i) (h : HeldOk V u0 T P w) : HeldOk V u0 T P (zipRunFile seekM F total src w).2 := by
  unfold zipRunFile
  dsimp only
  generalize seekM.resume w.ck.srcCk src = Q
  obtain ⟨r, s⟩ := Q
  cases r with
  | error e => exact h
  | ok off =>
    simp only
    generalize (if off < (match w.ck.entry with | some e => e.woff | none => 0) then
      discard seekM (fun _ c => (c, none)) F ((match w.ck.entry with | some e => e.woff | none => 0) - off) s () else (none, s, ()) : Option Err × seekM.St × Unit) = d
    obtain ⟨de, s2, _⟩ := d
    cases de with
    | some e => exact h
    | none =>
      simp only
      have hg := zipOpen_held hw h
      generalize zipOpen w = Q at *
      obtain ⟨ge, w1⟩ := Q
      cases ge with
      | some e =>
        rcases hg with a | ⟨a, b⟩
        · exact a.2
        · exact ⟨⟨a.1, a.2.1⟩, b.2⟩
      | none =>
        simp only
        rcases hg with a | ⟨a, b⟩
        · exact absurd rfl a.1
        · have := copyLoop_spaced hT (zipIO_spaced_hold (K := K) hP total) F 0 (seekM.setSSC true s2, { w1 with stop := false }) ⟨rfl, b⟩
            ⟨a.1, a.2.1, fun hs => Or.inr ((a.2.2 hs).resolve_left id)⟩
          exact ⟨this.2, this.1.2.2⟩

/-- A compressed member, from the beginning or from a checkpoint. -/
theorem zipRunFlate_held (g : Geo) (D : Decomp) (hT : AsksWithin V u0 T) (hask : ∀ st, D.ask st = 0)
    (hsv : ∀ st, D.canSave st = true → D.saveOK st = true) (hde : ∀ st, D.canSave st = true → D.dec (D.enc st) = some st ∨ D.dec (D.enc st) = none)
    (src : SeekSt) (hg : Seek.GoodS g src) (hst : Strides D G D.start g.stream)
    (hP : ∀ (ck : ECkpt) sck, ck.entryIndex = i → ck.srcCk = some sck → FlateCk D G g.stream sck → P ck) (F : Nat) (total : Int) (w : XW K V)
    (hw : w.ck.entryIndex = i) (hck : ∀ sck, w.ck.srcCk = some sck → FlateCk D G g.stream sck) (h : HeldOk V u0 (T + 2 * G) P w) :
    HeldOk V u0 (T + 2 * G) P (zipRunFile (wrapM flateCfg D seekM F) F total (Wrap.new D seekM src) w).2 := by
  unfold zipRunFile
  dsimp only
  have hres := wrapResume_owes g D G flateCfg hask hde F (Wrap.new D seekM src) hg hst w.ck.srcCk hck
  have hres' : ∀ o s', (wrapM flateCfg D seekM F).resume w.ck.srcCk (Wrap.new D seekM src) = (.ok o, s') → FlatePre g D G s' := hres
  clear hres
  generalize (wrapM flateCfg D seekM F).resume w.ck.srcCk (Wrap.new D seekM src) = Q at *
  obtain ⟨r, s⟩ := Q
  cases r with
  | error e => exact h
  | ok off =>
    simp only
    have hs := hres' off s rfl
    have hd : ∀ x : Int, FlatePre g D G (if off < x then discard (wrapM flateCfg D seekM F) (fun _ c => (c, none)) F (x - off) s () else (none, s, ()) :
        Option Err × (wrapM flateCfg D seekM F).St × Unit).2.1 := by
      intro x
      split
      · exact discard_keeps (S := wrapM flateCfg D seekM F) (fun _ c => (c, none)) (FlatePre g D G) (fun n s c hx => wrapRead_pre g D G hask flateCfg F _ n s c hx) F _ s () hs
      · exact hs
    replace hd := hd (match w.ck.entry with | some e => e.woff | none => 0)
    generalize (if off < (match w.ck.entry with | some e => e.woff | none => 0) then
        discard (wrapM flateCfg D seekM F) (fun _ c => (c, none)) F ((match w.ck.entry with | some e => e.woff | none => 0) - off) s () else (none, s, ()) :
        Option Err × (wrapM flateCfg D seekM F).St × Unit) = d at *
    obtain ⟨de, s2, _⟩ := d
    cases de with
    | some e => exact h
    | none =>
      simp only
      have hg := zipOpen_held hw h
      generalize zipOpen w = Q at *
      obtain ⟨ge, w1⟩ := Q
      cases ge with
      | some e =>
        rcases hg with a | ⟨a, b⟩
        · exact a.2
        · exact ⟨⟨a.1, a.2.1⟩, b.2⟩
      | none =>
        simp only
        rcases hg with a | ⟨a, b⟩
        · exact absurd rfl a.1
        · have := copyLoop_owing hT (zipIO_owing (K := K) (i := i) (P := P) (wrap_owing g D G flateCfg hask hsv F) hP total) F 0
            ((wrapM flateCfg D seekM F).setSSC true s2, { w1 with stop := false }) ⟨FlatePre.setSSC g D G (cfg := flateCfg) (F := F) hd, b⟩
            a.1 a.2.1 (fun hs => Or.inr ((a.2.2 hs).resolve_left id))
          exact ⟨this.2, this.1.2.2⟩

end

/-- A checkpoint of a zip run: if it is for a deflated member, its source checkpoint is a place to save at. -/
def ZipCk (A : Archive) (D : Decomp) (G : Nat) (ck : ECkpt) : Prop :=
  ∀ zf, A.files[ck.entryIndex.toNat]? = some zf → zf.method = .deflate → ∀ sck, ck.srcCk = some sck → FlateCk D G (zipRawBytes A zf) sck

section
variable {K : SinkM} {V : SaveCons} {u0 : V.St} {T G : Nat}

theorem zipEntry_held (hT : AsksWithin V u0 T) (A : Archive) (env : ZEnv) (D : Decomp) (hask : ∀ st, D.ask st = 0)
    (hsv : ∀ st, D.canSave st = true → D.saveOK st = true) (hde : ∀ st, D.canSave st = true → D.dec (D.enc st) = some st ∨ D.dec (D.enc st) = none)
    (F : Nat) (total : Int) (i : Nat) (zf : ZFile) (hi : A.files[i]? = some zf) (hm : zf.resumable) (hcs : zf.method = .deflate → 0 ≤ zf.csize)
    (hst : zf.method = .deflate → Strides D G D.start (zipRawBytes A zf)) (w : XW K V)
    (hck : zf.method = .deflate → ∀ sck, w.ck.srcCk = some sck → FlateCk D G (zipRawBytes A zf) sck)
    (h : HeldOk V u0 (T + 2 * G) (ZipCk A D G) w) : HeldOk V u0 (T + 2 * G) (ZipCk A D G) (zipEntry A env D F total i zf w).2 := by
  unfold zipEntry
  dsimp only
  generalize w.ck.entry.getD (zipFileEntry zf) = e
  have h1 : HeldOk V u0 (T + 2 * G) (ZipCk A D G) ({ w with ck := { w.ck with entryIndex := i, entry := some e } } : XW K V) := h
  split
  · exact h1
  · have key : ∀ r : Option Err × XW K V, HeldOk V u0 (T + 2 * G) (ZipCk A D G) r.2 →
        HeldOk V u0 (T + 2 * G) (ZipCk A D G) (match r.1 with | some e => (some e, r.2) | none => (none, { r.2 with done := wrap64 (r.2.done + zf.usize) }) : Option Err × XW K V).2 := by
      intro r hr
      split <;> exact hr
    refine key _ ?_
    split
    · exact ⟨⟨h.1.1.other (Or.inl (unsavedHere_snoc _ (.mkdir _ _))), h.1.2⟩, h.2.other fun l => by rw [savedCks_snoc]; simp⟩
    · split
      · exact h1
      · exact h1
      · exact ⟨⟨h.1.1.other (Or.inl (unsavedHere_snoc _ (.symlink _ _ _))), h.1.2⟩, h.2.other fun l => by rw [savedCks_snoc]; simp⟩
    · unfold zipFile
      rcases hm with hm | hm
      · rw [hm]
        simp only
        split
        · exact h1
        · refine zipRunStore_held (hT.mono (Nat.le_add_right _ _)) (i := i) ?_ F total _ _ rfl h1
          intro ck hx zf' hz' hd
          rw [hx, Int.toNat_natCast, hi] at hz'
          cases hz'
          rw [hm] at hd; cases hd
      · rw [hm]
        simp only
        split
        · exact h1
        · have hgs : (⟨zipRawBytes A zf, env.sched i, 0, zf.csize.toNat⟩ : Geo).stream = zipRawBytes A zf := zipGeo_stream ..
          refine zipRunFlate_held ⟨zipRawBytes A zf, env.sched i, 0, zf.csize.toNat⟩ D hT hask hsv hde _ ⟨rfl, rfl, rfl, ?_⟩ ?_ (i := i) ?_ F total _ rfl ?_ h1
          · show zf.csize = ((zf.csize.toNat : Nat) : Int)
            have := hcs hm
            omega
          · rw [hgs]; exact hst hm
          · intro ck sck hx hy hz zf' hz' _ sck' hs
            rw [hx, Int.toNat_natCast, hi] at hz'
            cases hz'
            rw [hy] at hs
            cases hs
            rw [hgs] at hz
            exact hz
          · rw [hgs]; exact hck hm

theorem zipLoop_held (hT : AsksWithin V u0 T) (A : Archive) (env : ZEnv) (D : Decomp) (hask : ∀ st, D.ask st = 0)
    (hsv : ∀ st, D.canSave st = true → D.saveOK st = true) (hde : ∀ st, D.canSave st = true → D.dec (D.enc st) = some st ∨ D.dec (D.enc st) = none)
    (hst : ∀ zf ∈ A.files, zf.resumable ∧ (zf.method = .deflate → 0 ≤ zf.csize ∧ Strides D G D.start (zipRawBytes A zf)))
    (F : Nat) (total : Int) : ∀ (fs : List ZFile) (i : Nat) (w : XW K V), A.files.drop i = fs →
    (∀ zf, A.files[i]? = some zf → zf.method = .deflate → ∀ sck, w.ck.srcCk = some sck → FlateCk D G (zipRawBytes A zf) sck) →
    HeldOk V u0 (T + 2 * G) (ZipCk A D G) w → HeldOk V u0 (T + 2 * G) (ZipCk A D G) (zipLoop A env D F total fs i w).2
  | [], _, _, _, _, h => h
  | zf :: fs, i, w, hfs, hck, h => by
    unfold zipLoop
    split
    · exact h
    · have hi : A.files[i]? = some zf := by
        have := congrArg (fun l => l[0]?) hfs
        simpa [List.getElem?_drop] using this
      have hfs2 : A.files.drop (i + 1) = fs := by
        have := congrArg List.tail hfs
        rwa [List.tail_drop] at this
      obtain ⟨a, b⟩ := hst zf (List.mem_of_getElem? hi)
      have := zipEntry_held hT A env D hask hsv hde F total i zf hi a (fun hm => (b hm).1) (fun hm => (b hm).2) w (hck zf hi) h
      dsimp only
      split
      · exact this
      · exact zipLoop_held hT A env D hask hsv hde hst F total fs (i + 1) _ hfs2 (fun _ _ _ _ hx => by cases hx) this

theorem zipPrealloc_held {P : ECkpt → Prop} : ∀ (fs : List ZFile) (w : XW K V), SavedOk P w.log → SavedOk P (zipPrealloc fs w).2.log
  | [], _, h => h
  | zf :: fs, w, h => by
    unfold zipPrealloc
    split
    · have h1 : SavedOk P (({ w with sink := (K.preallocate (zipFileEntry zf) w.sink).2 }).say (.prealloc (zipFileEntry zf) (K.preallocate (zipFileEntry zf) w.sink).1)).log :=
        h.other fun l => by rw [savedCks_snoc]; simp
      dsimp only
      split
      · exact h1
      · exact zipPrealloc_held fs _ h1
    · exact zipPrealloc_held fs w h

theorem zipPrealloc_ck : ∀ (fs : List ZFile) (w : XW K V), (zipPrealloc fs w).2.ck = w.ck
  | [], _ => rfl
  | zf :: fs, w => by
    unfold zipPrealloc
    split
    · dsimp only
      split
      · rfl
      · exact zipPrealloc_ck fs (({ w with sink := (K.preallocate (zipFileEntry zf) w.sink).2 }).say (.prealloc (zipFileEntry zf) (K.preallocate (zipFileEntry zf) w.sink).1))
    · exact zipPrealloc_ck fs w

/-- A run from the beginning or from a checkpoint of another run. -/
theorem zipResume_owes (A : Archive) (env : ZEnv) (D : Decomp) (hask : ∀ st, D.ask st = 0)
    (hsv : ∀ st, D.canSave st = true → D.saveOK st = true) (hde : ∀ st, D.canSave st = true → D.dec (D.enc st) = some st ∨ D.dec (D.enc st) = none)
    (hst : ∀ zf ∈ A.files, zf.resumable ∧ (zf.method = .deflate → 0 ≤ zf.csize ∧ Strides D G D.start (zipRawBytes A zf)))
    (F : Nat) (ck : Option ECkpt) (hck : ∀ c, ck = some c → ZipCk A D G c) (k : K.St) (u : V.St) (hT : AsksWithin V u T) :
    Spread (T + 2 * G + 32768) (zipResume A env D F K V ck k u).2.log ∧ SavedOk (ZipCk A D G) (zipResume A env D F K V ck k u).2.log := by
  have h0 : HeldOk V u (T + 2 * G) (ZipCk A D G) (zipInit (K := K) A ck k u) := ⟨⟨.nil, .start⟩, nofun⟩
  have h1 : HeldOk V u (T + 2 * G) (ZipCk A D G) (zipPrepare A ck (zipInit (K := K) A ck k u)).2 ∧
      (zipPrepare A ck (zipInit (K := K) (V := V) A ck k u)).2.ck = (zipInit (K := K) (V := V) A ck k u).ck := by
    unfold zipPrepare
    split
    · exact ⟨⟨zipPrealloc_space _ _ h0.1, zipPrealloc_held _ _ h0.2⟩, zipPrealloc_ck _ _⟩
    · exact ⟨h0, rfl⟩
  obtain ⟨h1, h2⟩ := h1
  have h3 : (zipInit (K := K) (V := V) A ck k u).ck = ck.getD freshCk := rfl
  rw [h3] at h2
  have hck2 : ∀ zf, A.files[(ck.getD freshCk).entryIndex.toNat]? = some zf → zf.method = .deflate → ∀ sck, (ck.getD freshCk).srcCk = some sck → FlateCk D G (zipRawBytes A zf) sck := by
    cases ck with
    | none => intro zf _ _ sck hx; cases hx
    | some c => exact hck c rfl
  unfold zipResume
  dsimp only
  generalize zipPrepare A ck (zipInit (K := K) (V := V) A ck k u) = p at *
  split
  · exact ⟨h1.1.1, h1.2⟩
  · split
    · exact ⟨h1.1.1, h1.2⟩
    · have := zipLoop_held hT A env D hask hsv hde hst F (zipSum A.files) (A.files.drop (ck.getD freshCk).entryIndex.toNat)
        (ck.getD freshCk).entryIndex.toNat p.2 rfl (by rw [h2]; exact hck2) h1
      split
      · exact ⟨this.1.1, this.2⟩
      · split <;> exact ⟨this.1.1, this.2⟩

end
end Savior
