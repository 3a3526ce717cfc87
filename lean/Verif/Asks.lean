import Verif.Spec.Asks
import Verif.Calls
import Verif.ZipResume
/-!
# What an extraction asks its save consumer
-/

namespace Savior

section
variable {K : SinkM} {V : SaveCons} {u : V.St}

/-- The log of a run and its consumer's state agree. -/
abbrev Told (u : V.St) (w : XW K V) : Prop := Asks V u (saves w.log) w.cons

theorem Asks.note {l : List Ev} {s : V.St} (h : Asks V u (saves l) s) (ev : Ev) (he : saves [ev] = []) : Asks V u (saves (l ++ [ev])) s := by
  rw [saves_append, he, List.append_nil]; exact h

theorem Asks.told {l : List Ev} {s : V.St} (h : Asks V u (saves l) s) (c : ECkpt) : Asks V u (saves (l ++ [.save c (V.save c s).1])) (V.save c s).2 := by
  rw [saves_append]; exact h.save c

/-! ## zip -/

theorem zipOnSave_asks (total : Int) (ck : Ckpt) (w : XW K V) (h : Told u w) : Told u (zipOnSave total ck w).1 := by
  have h1 : Asks V u (saves (w.log ++ [.sync (K.sync w.sink).1])) w.cons := h.note _ rfl
  unfold zipOnSave
  simp only []
  split
  · exact h1
  · split <;> exact h1.told _

theorem write_asks (bs : List Byte) (w : XW K V) (h : Told u w) : Told u (w.write bs).2 := h.note _ rfl

theorem zipOpen_asks (w : XW K V) (h : Told u w) : Told u (zipOpen w).2 := by
  unfold zipOpen
  split
  · exact h
  · exact h.note _ rfl

theorem zipRunFile_asks (S : SourceM) (hS : S.Conduit) (F : Nat) (total : Int) (src : S.St) (w : XW K V) (h : Told u w) :
    Told u (zipRunFile S F total src w).2 := by
  unfold zipRunFile
  simp only []
  split
  · exact h
  · split
    · exact h
    · have g := zipOpen_asks w h
      cases hg : (zipOpen w).1 with
      | some x => exact g
      | none =>
        exact copyLoop_inv (zipIO S total) (fun q => Told u q.2)
          (fun q hq => by
            show Told u (S.read (zipOnSave total) 32768 q.1 q.2).2.2
            rcases hS _ (zipOnSave total) 32768 q.1 q.2 with a | ⟨ck, a⟩
            · rw [a]; exact hq
            · rw [a]; exact zipOnSave_asks total ck q.2 hq)
          (fun bs q hq => write_asks bs q.2 hq) (fun q hq => hq.note _ rfl) (fun n q hq => hq.should n) (fun q hq => hq) F 0 _ g

theorem ioCopy_asks : ∀ (chunks : List (List Byte)) (e : Option Err) (w : XW K V), Told u w → Told u (ioCopy chunks e w).2 := by
  intro chunks
  induction chunks with
  | nil => intro e w h; exact h
  | cons c cs ih =>
    intro e w h
    unfold ioCopy
    split
    · exact ih e w h
    · simp only []
      have h1 := write_asks c w h
      split
      · exact h1
      · split
        · exact h1
        · exact ih e _ h1

theorem zipEntry_asks (A : Archive) (env : ZEnv) (D : Decomp) (F : Nat) (total : Int) (i : Nat) (zf : ZFile) (w : XW K V) (h : Told u w) :
    Told u (zipEntry A env D F total i zf w).2 := by
  have key : ∀ (r : Option Err × XW K V), Told u r.2 → Told u (match r.1 with
      | some e => (some e, r.2)
      | none => (none, { r.2 with done := wrap64 (r.2.done + zf.usize) })).2 := by
    rintro ⟨r1, r2⟩ hr
    cases r1 <;> exact hr
  unfold zipEntry
  simp only []
  split
  · exact h
  · refine key _ ?_
    split
    · exact h.note _ rfl
    · split
      · exact h
      · exact h
      · exact h.note _ rfl
    · unfold zipFile
      split
      · split
        · exact h
        · exact zipRunFile_asks seekM seek_conduit F total _ _ h
      · split
        · exact h
        · exact zipRunFile_asks _ (wrap_reports _ _ _ _).conduit F total _ _ h
      · unfold zipCopyFile
        simp only []
        split
        · exact h
        · rename_i chunks e _
          have g := zipOpen_asks (K := K) (V := V)
            { w with ck := { w.ck with entryIndex := i, entry := (some (w.ck.entry.getD (zipFileEntry zf))).map fun e => { e with woff := 0 } } } h
          split
          · exact g
          · exact ioCopy_asks _ _ _ g

theorem zipLoop_asks (A : Archive) (env : ZEnv) (D : Decomp) (F : Nat) (total : Int) : ∀ (fs : List ZFile) (i : Nat) (w : XW K V),
    Told u w → Told u (zipLoop A env D F total fs i w).2 := by
  intro fs
  induction fs with
  | nil => intro i w h; exact h
  | cons zf fs ih =>
    intro i w h
    unfold zipLoop
    split
    · exact h
    · have he := zipEntry_asks A env D F total i zf w h
      simp only []
      split
      · exact he
      · exact ih _ _ he

theorem zipPrealloc_asks : ∀ (fs : List ZFile) (w : XW K V), Told u w → Told u (zipPrealloc fs w).2 := by
  intro fs
  induction fs with
  | nil => intro w h; exact h
  | cons zf fs ih =>
    intro w h
    unfold zipPrealloc
    split
    · simp only []
      split
      · exact h.note _ rfl
      · exact ih _ (Asks.note h _ rfl)
    · exact ih w h

/-- A zip extraction's log is the truth about the save consumer, whatever the archive and the checkpoint. -/
theorem zipResume_asks (A : Archive) (env : ZEnv) (D : Decomp) (F : Nat) (K : SinkM) (V : SaveCons) (ck : Option ECkpt) (k : K.St) (u : V.St) :
    Asks V u (saves (zipResume A env D F K V ck k u).2.log) (zipResume A env D F K V ck k u).2.cons := by
  have hp : Told u (zipPrepare A ck (zipInit A ck k u : XW K V)).2 := by
    unfold zipPrepare
    split
    · exact zipPrealloc_asks _ _ .start
    · exact .start
  unfold zipResume
  simp only []
  split
  · exact hp
  · split
    · exact hp
    · have hl := zipLoop_asks A env D F (zipSum A.files) (A.files.drop (ck.getD freshCk).entryIndex.toNat) (ck.getD freshCk).entryIndex.toNat _ hp
      split
      · exact hl
      · split <;> exact hl

/-! ## tar -/

variable {T : TarFmt}

theorem tarOnSave_asks (pr : Ckpt → Int × Int) (ck : Ckpt) (c : TC T K V) (h : Told u c.xw) :
    Told u (tarOnSave T pr ck c).1.xw := by
  unfold tarOnSave
  split
  · exact h
  · split
    · exact h
    · simp only []
      split <;> exact h.told _

theorem tarNext_asks {S : SourceM} (hS : S.Conduit) (pr : Ckpt → Int × Int) : ∀ (fuel : Nat) (s : S.St) (c : TC T K V),
    Told u c.xw →
    Told u (tarNext S T (tarOnSave T pr) fuel s c).2.2.xw := by
  intro fuel
  induction fuel with
  | zero => intro s c h; exact h
  | succ fuel ih =>
    intro s c h
    have hr : ∀ n, Told u (S.read (tarOnSave T pr) n s c).2.2.xw := by
      intro n
      rcases hS _ (tarOnSave T pr) n s c with a | ⟨ck, a⟩
      · rw [a]; exact h
      · rw [a]; exact tarOnSave_asks pr ck c h
    unfold tarNext
    split
    · exact h
    · exact h
    · exact h
    · rename_i n hn
      have hr' := hr n
      simp only []
      split
      · exact ih _ _ hr'
      · split
        · split
          · exact ih _ _ hr'
          · split <;> exact hr'
        · exact hr'

theorem tarFile_asks {S : SourceM} (hS : S.Conduit) (pr : Ckpt → Int × Int) (F : Nat) (e : Entry) (s : S.St)
    (c : TC T K V) (h : Told u c.xw) :
    Told u (tarFile S T pr F e s c).2.2.xw := by
  have hc : ∀ q : S.St × TC T K V, Told u q.2.xw → Told u (copyDo (tarIO S T pr) F q).2.1.2.xw := fun q hq =>
    copyLoop_inv (tarIO S T pr) (fun q => Told u q.2.xw)
      (fun q hq => by
        show Told u (tarRead S T pr q.1 q.2).2.2.xw
        unfold tarRead
        split
        · exact hq
        · simp only []
          rcases hS _ (tarOnSave T pr) (min 32768 (T.rem q.2.rd)) q.1 q.2 with a | ⟨ck, a⟩
          · rw [a]; exact hq
          · rw [a]; exact tarOnSave_asks pr ck q.2 hq)
      (fun bs q hq => write_asks bs q.2.xw hq) (fun q hq => hq.note _ rfl) (fun n q hq => hq.should n) (fun q hq => hq) F 0 _ hq
  unfold tarFile
  simp only []
  split
  · exact h.note _ rfl
  · generalize hW : (s, ({ c with xw := _ } : TC T K V)) = W
    have hc := hc W (by rw [← hW]; exact h.note _ rfl)
    generalize copyDo (tarIO S T pr) F W = r at *
    obtain ⟨r1, ⟨r2, r3⟩, r4⟩ := r
    cases r1 with
    | some x => exact hc
    | none => exact Asks.note hc _ rfl

theorem tarExtract_asks {S : SourceM} (hS : S.Conduit) (pr : Ckpt → Int × Int) (F : Nat) (e : Entry) (s : S.St)
    (c : TC T K V) (h : Told u c.xw) :
    Told u (tarExtract S T pr F e s c).2.2.xw := by
  have key : ∀ (r : Option Err × S.St × TC T K V), Told u r.2.2.xw → Told u
      (match r.1 with
      | some x => (some x, r.2)
      | none => (none, r.2.1, { r.2.2 with xw := { r.2.2.xw with ck := { r.2.2.xw.ck with entry := none, srcCk := none, data := none } } })).2.2.xw := by
    rintro ⟨r1, r2⟩ hr
    cases r1 <;> exact hr
  unfold tarExtract
  simp only []
  refine key _ ?_
  split
  · exact h.note _ rfl
  · exact h.note _ rfl
  · exact tarFile_asks hS pr F e s _ h

theorem tarStep_asks {S : SourceM} (hS : S.Conduit) (pr : Ckpt → Int × Int) (F : Nat) (idx : Int) (s : S.St)
    (c : TC T K V) (h : Told u c.xw) :
    Told u (tarStep S T pr F idx s c).2.2.xw := by
  unfold tarStep
  simp only []
  split
  · exact tarExtract_asks hS pr F _ s _ h
  · have hn := tarNext_asks (T := T) (K := K) (V := V) hS pr F s { c with cur := false, xw := { c.xw with ck := { c.xw.ck with entryIndex := idx } } } h
    generalize tarNext S T (tarOnSave T pr) F s { c with cur := false, xw := { c.xw with ck := { c.xw.ck with entryIndex := idx } } } = n at *
    obtain ⟨n1, n2, n3⟩ := n
    cases n1 with
    | error x => exact hn
    | ok hd =>
      simp only []
      split
      · exact hn
      · exact tarExtract_asks hS pr F _ n2 n3 hn

theorem tarLoop_asks {S : SourceM} (hS : S.Conduit) (pr : Ckpt → Int × Int) (F : Nat) :
    ∀ (fuel : Nat) (idx : Int) (s : S.St) (c : TC T K V), Told u c.xw →
    Told u (tarLoop S T pr F fuel idx s c).2.2.xw := by
  intro fuel
  induction fuel with
  | zero => intro idx s c h; exact h
  | succ fuel ih =>
    intro idx s c h
    unfold tarLoop
    split
    · exact h
    · have hs := tarStep_asks hS pr F idx s c h
      simp only []
      split
      · exact hs
      · exact hs
      · exact ih _ _ _ hs

theorem tarBegin_asks (S : SourceM) (F : Nat) (ck : Option ECkpt) (src : S.St) (k : K.St) (u : V.St) :
    Told u (tarBegin S T F ck src k u : Option Err × S.St × TC T K V).2.2.xw := by
  have h1 : Told u (tarFresh S T src k u : Option Err × S.St × TC T K V).2.2.xw := by
    unfold tarFresh; simp only []; split <;> exact .start
  unfold tarBegin
  split
  · split
    · unfold tarAgain
      simp only []
      split
      · exact .start
      · split
        · exact .start
        · split <;> exact .start
    · exact h1
  · exact h1

/-- A tar extraction's log is the truth about the save consumer, whatever the stream and the checkpoint. -/
theorem tarResume_asks {S : SourceM} (hS : S.Conduit) (pr : Ckpt → Int × Int) (F : Nat) (K : SinkM) (V : SaveCons)
    (ck : Option ECkpt) (src : S.St) (k : K.St) (u : V.St) :
    Asks V u (saves (tarResume S T pr F K V ck src k u).2.2.log) (tarResume S T pr F K V ck src k u).2.2.cons := by
  have h0 : Told u (tarBegin S T F ck src k u : Option Err × S.St × TC T K V).2.2.xw := tarBegin_asks S F ck src k u
  unfold tarResume
  simp only []
  generalize (tarBegin S T F ck src k u : Option Err × S.St × TC T K V) = b at *
  obtain ⟨b1, b2, b3⟩ := b
  cases b1 with
  | some x => exact h0
  | none =>
    simp only []
    have hl := tarLoop_asks hS pr F F b3.xw.ck.entryIndex (S.setSSC true b2) b3 h0
    split <;> exact hl

end
end Savior
