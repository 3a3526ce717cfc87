import Verif.Spec.Calls
import Verif.Surface
/-!
# The calls an extraction makes on a sink
-/

namespace Savior

/-- What every step of the copier keeps, the copier keeps. -/
theorem copyLoop_inv {W : Type} (io : CopyIO W) (N : W → Prop) (hread : ∀ w, N w → N (io.read w).2) (hwrite : ∀ bs w, N w → N (io.write bs w).2)
    (hemit : ∀ w, N w → N (io.emit w)) (hshould : ∀ n w, N w → N (io.shouldSave n w).2) (hwant : ∀ w, N w → N (io.wantSave w)) :
    ∀ fuel counter w, N w → N (copyLoop io fuel counter w).2.1 := by
  intro fuel
  induction fuel with
  | zero => intro counter w h; exact h
  | succ fuel ih =>
    intro counter w h
    unfold copyLoop
    split
    · exact h
    · simp only []
      have hm := hwrite (io.read w).1.1 _ (hread w h)
      generalize io.write (io.read w).1.1 (io.read w).2 = m at *
      cases hme : m.1.2 with
      | some x => exact hm
      | none =>
        simp only []
        have h1 : N (if decide (progressThreshold < counter + m.1.1) = true then io.emit m.2 else m.2) := by
          split
          · exact hemit _ hm
          · exact hm
        generalize (if decide (progressThreshold < counter + m.1.1) = true then io.emit m.2 else m.2) = w1 at *
        cases hre : (io.read w).1.2 with
        | some x => exact h1
        | none =>
          refine ih _ _ ?_
          have h2 := hshould (io.read w).1.1.length w1 h1
          split
          · exact hwant _ h2
          · exact h2

section
variable {K : SinkM} {V : SaveCons} {tidy : Bool} {k : K.St}

/-! ## zip -/

theorem zipOnSave_calls (total : Int) (ck : Ckpt) (w : XW K V) (h : Calls K tidy k true w.log w.sink) :
    Calls K tidy k true (zipOnSave total ck w).1.log (zipOnSave total ck w).1.sink := by
  have h1 := h.sync
  unfold zipOnSave
  simp only []
  split
  · rename_i x hx
    exact h1
  · have h2 : ∀ c a, Calls K tidy k true ((w.log ++ [.sync (K.sync w.sink).1]) ++ [.save c a]) (K.sync w.sink).2 := fun c a => h1.note _ rfl
    split <;> exact h2 _ _

theorem write_calls (bs : List Byte) (w : XW K V) (h : Calls K tidy k true w.log w.sink) :
    Calls K tidy k true (w.write bs).2.log (w.write bs).2.sink := h.write bs

theorem zipOpen_calls (w : XW K V) {b : Bool} (h : Calls K false k b w.log w.sink) :
    (∃ b', Calls K false k b' (zipOpen w).2.log (zipOpen w).2.sink) ∧ ((zipOpen w).1 = none → Calls K false k true (zipOpen w).2.log (zipOpen w).2.sink) := by
  unfold zipOpen
  split
  · exact ⟨⟨b, h⟩, by simp⟩
  · rename_i e _
    have h1 : (K.getWriter e w.sink).1 = none → Calls K false k true (w.log ++ [.openW e (K.getWriter e w.sink).1]) (K.getWriter e w.sink).2 := by
      intro hq
      rw [hq]
      exact h.opened e (by simp) hq
    refine ⟨?_, h1⟩
    show ∃ b', Calls K false k b' (w.log ++ [.openW e (K.getWriter e w.sink).1]) (K.getWriter e w.sink).2
    cases hq : (K.getWriter e w.sink).1 with
    | none => rw [hq] at h1; exact ⟨true, h1 rfl⟩
    | some x => exact ⟨b, h.refused e x (by simp) hq⟩

theorem zipRunFile_calls (S : SourceM) (hS : S.Conduit) (F : Nat) (total : Int) (src : S.St) (w : XW K V) {b : Bool}
    (h : Calls K false k b w.log w.sink) : ∃ b', Calls K false k b' (zipRunFile S F total src w).2.log (zipRunFile S F total src w).2.sink := by
  unfold zipRunFile
  simp only []
  split
  · exact ⟨b, h⟩
  · split
    · exact ⟨b, h⟩
    · obtain ⟨g1, g2⟩ := zipOpen_calls w h
      cases hg : (zipOpen w).1 with
      | some x => exact g1
      | none =>
        refine ⟨true, ?_⟩
        exact copyLoop_inv (zipIO S total) (fun q => Calls K false k true q.2.log q.2.sink)
          (fun q hq => by
            show Calls K false k true (S.read (zipOnSave total) 32768 q.1 q.2).2.2.log (S.read (zipOnSave total) 32768 q.1 q.2).2.2.sink
            rcases hS _ (zipOnSave total) 32768 q.1 q.2 with a | ⟨ck, a⟩
            · rw [a]; exact hq
            · rw [a]; exact zipOnSave_calls total ck q.2 hq)
          (fun bs q hq => write_calls bs q.2 hq) (fun q hq => hq.note _ rfl) (fun n q hq => hq) (fun q hq => hq) F 0 _ (g2 hg)

theorem ioCopy_calls : ∀ (chunks : List (List Byte)) (e : Option Err) (w : XW K V), Calls K tidy k true w.log w.sink →
    Calls K tidy k true (ioCopy chunks e w).2.log (ioCopy chunks e w).2.sink := by
  intro chunks
  induction chunks with
  | nil => intro e w h; exact h
  | cons c cs ih =>
    intro e w h
    unfold ioCopy
    split
    · exact ih e w h
    · simp only []
      have h1 := write_calls c w h
      split
      · exact h1
      · split
        · exact h1
        · exact ih e _ h1

theorem zipEntry_calls (A : Archive) (env : ZEnv) (D : Decomp) (F : Nat) (total : Int) (i : Nat) (zf : ZFile)
    (w : XW K V) {b : Bool} (h : Calls K false k b w.log w.sink) :
    ∃ b', Calls K false k b' (zipEntry A env D F total i zf w).2.log (zipEntry A env D F total i zf w).2.sink := by
  have key : ∀ (r : Option Err × XW K V), (∃ b', Calls K false k b' r.2.log r.2.sink) → ∃ b', Calls K false k b' (match r.1 with
      | some e => (some e, r.2)
      | none => (none, { r.2 with done := wrap64 (r.2.done + zf.usize) })).2.log (match r.1 with
      | some e => (some e, r.2)
      | none => (none, { r.2 with done := wrap64 (r.2.done + zf.usize) })).2.sink := by
    rintro ⟨r1, r2⟩ hr
    cases r1 <;> exact hr
  unfold zipEntry
  simp only []
  split
  · exact ⟨b, h⟩
  · refine key _ ?_
    split
    · exact ⟨b, h.mkdir _⟩
    · split
      · exact ⟨b, h⟩
      · exact ⟨b, h⟩
      · exact ⟨b, h.symlink _ _⟩
    · unfold zipFile
      split
      · split
        · exact ⟨b, h⟩
        · exact zipRunFile_calls seekM seek_conduit F total _ _ h
      · split
        · exact ⟨b, h⟩
        · exact zipRunFile_calls _ (wrap_reports _ _ _ _).conduit F total _ _ h
      · unfold zipCopyFile
        simp only []
        split
        · exact ⟨b, h⟩
        · rename_i chunks e _
          obtain ⟨g1, g2⟩ := zipOpen_calls (K := K) (V := V)
            { w with ck := { w.ck with entryIndex := i, entry := (some (w.ck.entry.getD (zipFileEntry zf))).map fun e => { e with woff := 0 } } } h
          split
          · exact g1
          · rename_i hx
            exact ⟨true, ioCopy_calls _ _ _ (g2 hx)⟩

theorem zipLoop_calls (A : Archive) (env : ZEnv) (D : Decomp) (F : Nat) (total : Int) : ∀ (fs : List ZFile) (i : Nat) (w : XW K V) (b : Bool),
    Calls K false k b w.log w.sink → ∃ b', Calls K false k b' (zipLoop A env D F total fs i w).2.log (zipLoop A env D F total fs i w).2.sink := by
  intro fs
  induction fs with
  | nil => intro i w b h; exact ⟨b, h⟩
  | cons zf fs ih =>
    intro i w b h
    unfold zipLoop
    split
    · exact ⟨b, h⟩
    · obtain ⟨b', he⟩ := zipEntry_calls A env D F total i zf w h
      simp only []
      split
      · exact ⟨b', he⟩
      · exact ih _ _ b' he

theorem zipPrealloc_calls : ∀ (fs : List ZFile) (w : XW K V) (b : Bool), Calls K tidy k b w.log w.sink →
    Calls K tidy k b (zipPrealloc fs w).2.log (zipPrealloc fs w).2.sink := by
  intro fs
  induction fs with
  | nil => intro w b h; exact h
  | cons zf fs ih =>
    intro w b h
    unfold zipPrealloc
    split
    · simp only []
      split
      · exact h.prealloc _
      · exact ih _ _ (h.prealloc _)
    · exact ih w b h

/-- A zip extraction's log is the truth, whatever the archive and the checkpoint. -/
theorem zipResume_calls (A : Archive) (env : ZEnv) (D : Decomp) (F : Nat) (K : SinkM) (V : SaveCons) (ck : Option ECkpt) (k : K.St) (u : V.St) :
    ∃ b, Calls K false k b (zipResume A env D F K V ck k u).2.log (zipResume A env D F K V ck k u).2.sink := by
  have hp : Calls K false k false (zipPrepare A ck (zipInit A ck k u : XW K V)).2.log (zipPrepare A ck (zipInit A ck k u : XW K V)).2.sink := by
    unfold zipPrepare
    split
    · exact zipPrealloc_calls _ _ _ .start
    · exact .start
  unfold zipResume
  simp only []
  split
  · exact ⟨_, hp⟩
  · split
    · exact ⟨_, hp⟩
    · obtain ⟨b', hl⟩ := zipLoop_calls A env D F (zipSum A.files) (A.files.drop (ck.getD freshCk).entryIndex.toNat) (ck.getD freshCk).entryIndex.toNat _ _ hp
      split
      · exact ⟨b', hl⟩
      · split <;> exact ⟨b', hl⟩

/-! ## tar -/

variable {T : TarFmt}

theorem tarOnSave_calls (pr : Ckpt → Int × Int) (ck : Ckpt) (c : TC T K V) {b : Bool} (h : Calls K tidy k b c.xw.log c.xw.sink) :
    Calls K tidy k b (tarOnSave T pr ck c).1.xw.log (tarOnSave T pr ck c).1.xw.sink := by
  unfold tarOnSave
  split
  · exact h
  · split
    · exact h
    · simp only []
      split <;> exact h.note _ rfl

theorem tarNext_calls {S : SourceM} (hS : S.Conduit) (pr : Ckpt → Int × Int) {b : Bool} : ∀ (fuel : Nat) (s : S.St) (c : TC T K V),
    Calls K tidy k b c.xw.log c.xw.sink →
    Calls K tidy k b (tarNext S T (tarOnSave T pr) fuel s c).2.2.xw.log (tarNext S T (tarOnSave T pr) fuel s c).2.2.xw.sink := by
  intro fuel
  induction fuel with
  | zero => intro s c h; exact h
  | succ fuel ih =>
    intro s c h
    have hr : ∀ n, Calls K tidy k b (S.read (tarOnSave T pr) n s c).2.2.xw.log (S.read (tarOnSave T pr) n s c).2.2.xw.sink := by
      intro n
      rcases hS _ (tarOnSave T pr) n s c with a | ⟨ck, a⟩
      · rw [a]; exact h
      · rw [a]; exact tarOnSave_calls pr ck c h
    unfold tarNext
    split
    · exact h
    · exact h
    · exact h
    · rename_i n hn
      have hr' := hr n
      simp only []
      split
      · exact ih _ _ hr'
      · split
        · split
          · exact ih _ _ hr'
          · split <;> exact hr'
        · exact hr'

theorem tarFile_calls {S : SourceM} (hS : S.Conduit) (pr : Ckpt → Int × Int) (F : Nat) (e : Entry) (s : S.St)
    (c : TC T K V) (h : Calls K tidy k false c.xw.log c.xw.sink) :
    Calls K tidy k false (tarFile S T pr F e s c).2.2.xw.log (tarFile S T pr F e s c).2.2.xw.sink := by
  unfold tarFile
  simp only []
  split
  · rename_i x hx
    have := h.refused e x (by simp) hx
    rw [hx]
    exact this
  · rename_i hx
    have h1 := h.opened e (by simp) hx
    have hc : ∀ q : S.St × TC T K V, Calls K tidy k true q.2.xw.log q.2.xw.sink →
        Calls K tidy k true (copyDo (tarIO S T pr) F q).2.1.2.xw.log (copyDo (tarIO S T pr) F q).2.1.2.xw.sink := fun q hq =>
      copyLoop_inv (tarIO S T pr) (fun q => Calls K tidy k true q.2.xw.log q.2.xw.sink)
        (fun q hq => by
          show Calls K tidy k true (tarRead S T pr q.1 q.2).2.2.xw.log (tarRead S T pr q.1 q.2).2.2.xw.sink
          unfold tarRead
          split
          · exact hq
          · simp only []
            rcases hS _ (tarOnSave T pr) (min 32768 (T.rem q.2.rd)) q.1 q.2 with a | ⟨ck, a⟩
            · rw [a]; exact hq
            · rw [a]; exact tarOnSave_calls pr ck q.2 hq)
        (fun bs q hq => write_calls bs q.2.xw hq) (fun q hq => hq.note _ rfl) (fun n q hq => hq) (fun q hq => hq) F 0 _ hq
    generalize hW : (s, ({ c with xw := _ } : TC T K V)) = W
    have hc := hc W (by rw [← hW]; simp only [XW.say]; rw [hx]; exact h1)
    generalize copyDo (tarIO S T pr) F W = r at *
    obtain ⟨r1, ⟨r2, r3⟩, r4⟩ := r
    cases r1 with
    | some x => exact hc.close
    | none => exact hc.close.note _ rfl

theorem tarExtract_calls {S : SourceM} (hS : S.Conduit) (pr : Ckpt → Int × Int) (F : Nat) (e : Entry) (s : S.St)
    (c : TC T K V) (h : Calls K tidy k false c.xw.log c.xw.sink) :
    Calls K tidy k false (tarExtract S T pr F e s c).2.2.xw.log (tarExtract S T pr F e s c).2.2.xw.sink := by
  have key : ∀ (r : Option Err × S.St × TC T K V), Calls K tidy k false r.2.2.xw.log r.2.2.xw.sink → Calls K tidy k false
      (match r.1 with
      | some x => (some x, r.2)
      | none => (none, r.2.1, { r.2.2 with xw := { r.2.2.xw with ck := { r.2.2.xw.ck with entry := none, srcCk := none, data := none } } })).2.2.xw.log
      (match r.1 with
      | some x => (some x, r.2)
      | none => (none, r.2.1, { r.2.2 with xw := { r.2.2.xw with ck := { r.2.2.xw.ck with entry := none, srcCk := none, data := none } } })).2.2.xw.sink := by
    rintro ⟨r1, r2⟩ hr
    cases r1 <;> exact hr
  unfold tarExtract
  simp only []
  refine key _ ?_
  split
  · exact h.mkdir _
  · exact h.symlink _ _
  · exact tarFile_calls hS pr F e s _ h

theorem tarStep_calls {S : SourceM} (hS : S.Conduit) (pr : Ckpt → Int × Int) (F : Nat) (idx : Int) (s : S.St)
    (c : TC T K V) (h : Calls K tidy k false c.xw.log c.xw.sink) :
    Calls K tidy k false (tarStep S T pr F idx s c).2.2.xw.log (tarStep S T pr F idx s c).2.2.xw.sink := by
  unfold tarStep
  simp only []
  split
  · exact tarExtract_calls hS pr F _ s _ h
  · have hn := tarNext_calls (T := T) (K := K) (V := V) hS pr F s { c with cur := false, xw := { c.xw with ck := { c.xw.ck with entryIndex := idx } } } h
    generalize tarNext S T (tarOnSave T pr) F s { c with cur := false, xw := { c.xw with ck := { c.xw.ck with entryIndex := idx } } } = n at *
    obtain ⟨n1, n2, n3⟩ := n
    cases n1 with
    | error x => exact hn
    | ok hd =>
      simp only []
      split
      · exact hn
      · exact tarExtract_calls hS pr F _ n2 n3 hn

theorem tarLoop_calls {S : SourceM} (hS : S.Conduit) (pr : Ckpt → Int × Int) (F : Nat) :
    ∀ (fuel : Nat) (idx : Int) (s : S.St) (c : TC T K V), Calls K tidy k false c.xw.log c.xw.sink →
    Calls K tidy k false (tarLoop S T pr F fuel idx s c).2.2.xw.log (tarLoop S T pr F fuel idx s c).2.2.xw.sink := by
  intro fuel
  induction fuel with
  | zero => intro idx s c h; exact h
  | succ fuel ih =>
    intro idx s c h
    unfold tarLoop
    split
    · exact h
    · have hs := tarStep_calls hS pr F idx s c h
      simp only []
      split
      · exact hs
      · exact hs
      · exact ih _ _ _ hs

theorem tarBegin_calls (S : SourceM) (F : Nat) (ck : Option ECkpt) (src : S.St) (k : K.St) (u : V.St) :
    Calls K tidy k false (tarBegin S T F ck src k u : Option Err × S.St × TC T K V).2.2.xw.log (tarBegin S T F ck src k u : Option Err × S.St × TC T K V).2.2.xw.sink := by
  have h1 : Calls K tidy k false (tarFresh S T src k u : Option Err × S.St × TC T K V).2.2.xw.log (tarFresh S T src k u : Option Err × S.St × TC T K V).2.2.xw.sink := by
    unfold tarFresh; simp only []; split <;> exact .start
  unfold tarBegin
  split
  · split
    · unfold tarAgain
      simp only []
      split
      · exact .start
      · split
        · exact .start
        · split <;> exact .start
    · exact h1
  · exact h1

/-- A tar extraction's log is the truth, whatever the stream and the checkpoint; and every writer is closed before the next
one is asked for and before the end. -/
theorem tarResume_calls {S : SourceM} (hS : S.Conduit) (pr : Ckpt → Int × Int) (F : Nat) (K : SinkM) (V : SaveCons)
    (ck : Option ECkpt) (src : S.St) (k : K.St) (u : V.St) :
    Calls K true k false (tarResume S T pr F K V ck src k u).2.2.log (tarResume S T pr F K V ck src k u).2.2.sink := by
  have h0 : Calls K true k false (tarBegin S T F ck src k u : Option Err × S.St × TC T K V).2.2.xw.log _ := tarBegin_calls S F ck src k u
  unfold tarResume
  simp only []
  generalize (tarBegin S T F ck src k u : Option Err × S.St × TC T K V) = b at *
  obtain ⟨b1, b2, b3⟩ := b
  cases b1 with
  | some x => exact h0
  | none =>
    simp only []
    have hl := tarLoop_calls hS pr F F b3.xw.ck.entryIndex (S.setSSC true b2) b3 h0
    split <;> exact hl

end
end Savior
