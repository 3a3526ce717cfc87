import Verif.Calls
import Verif.TarSaves
/-!
# The links an extraction creates are those of the archive
-/

namespace Savior

/-- Since the log was `l0`: the links made are `ok`; the checkpoints saved were taken within regular files; nothing has been
preallocated. -/
structure LinksOK (ok : Entry → Str → Prop) (l0 log : List Ev) : Prop where
  pre : l0 <+: log
  links : ∀ e t r, Ev.symlink e t r ∈ log.drop l0.length → ok e t
  saved : ∀ c a, Ev.save c a ∈ log.drop l0.length → ∃ e, c.entry = some e ∧ e.kind = .file
  noPre : ∀ e r, Ev.prealloc e r ∉ log.drop l0.length

section
variable {K : SinkM} {V : SaveCons} {ok : Entry → Str → Prop} {l0 : List Ev}

theorem LinksOK.nil (l0 : List Ev) : LinksOK ok l0 l0 := ⟨List.prefix_rfl, by simp, by simp, by simp⟩

theorem LinksOK.say {l0 log : List Ev} {ev : Ev} (h : LinksOK ok l0 log) (h1 : ∀ e t r, ev = .symlink e t r → ok e t)
    (h2 : ∀ c a, ev = .save c a → ∃ e, c.entry = some e ∧ e.kind = .file) (h3 : ∀ e r, ev ≠ .prealloc e r) : LinksOK ok l0 (log ++ [ev]) := by
  have hd : (log ++ [ev]).drop l0.length = log.drop l0.length ++ [ev] := List.drop_append_of_le_length h.pre.length_le
  constructor
  · exact h.pre.trans (List.prefix_append _ _)
  · intro e t r hm
    rw [hd] at hm
    rcases List.mem_append.1 hm with hm | hm
    · exact h.links e t r hm
    · exact h1 e t r (List.mem_singleton.1 hm).symm
  · intro c a hm
    rw [hd] at hm
    rcases List.mem_append.1 hm with hm | hm
    · exact h.saved c a hm
    · exact h2 c a (List.mem_singleton.1 hm).symm
  · intro e r hm
    rw [hd] at hm
    rcases List.mem_append.1 hm with hm | hm
    · exact h.noPre e r hm
    · exact h3 e r (List.mem_singleton.1 hm).symm

/-- Within a regular file. -/
structure InFile (ok : Entry → Str → Prop) (l0 : List Ev) (w : XW K V) : Prop where
  log : LinksOK ok l0 w.log
  cur : ∃ e, w.ck.entry = some e ∧ e.kind = .file

theorem zipOnSave_inFile (total : Int) (ck : Ckpt) (w : XW K V) (h : InFile ok l0 w) : InFile ok l0 (zipOnSave total ck w).1 := by
  have h1 := h.log.say (ev := .sync (K.sync w.sink).1) (by simp) (by simp) (by simp)
  unfold zipOnSave
  simp only []
  split
  · exact ⟨h1, h.cur⟩
  · have h2 : ∀ c a, (∃ e, c.entry = some e ∧ e.kind = .file) → LinksOK ok l0 ((w.log ++ [.sync (K.sync w.sink).1]) ++ [.save c a]) := by
      intro c a hc
      exact h1.say (by simp) (by intro c' a' e; cases e; exact hc) (by simp)
    split <;> exact ⟨h2 _ _ h.cur, h.cur⟩

theorem write_inFile (bs : List Byte) (w : XW K V) (h : InFile ok l0 w) : InFile ok l0 (w.write bs).2 := by
  refine ⟨h.log.say (by simp) (by simp) (by simp), ?_⟩
  obtain ⟨e, he, hk⟩ := h.cur
  refine ⟨{ e with woff := e.woff + (K.write bs w.sink).1.2.1 }, ?_, hk⟩
  show w.ck.entry.map _ = _
  rw [he]
  rfl

theorem zipOpen_inFile (w : XW K V) (h : InFile ok l0 w) : InFile ok l0 (zipOpen w).2 := by
  unfold zipOpen
  split
  · exact h
  · exact ⟨h.log.say (by simp) (by simp) (by simp), h.cur⟩

theorem zipRunFile_inFile (S : SourceM) (hS : S.Conduit) (F : Nat) (total : Int) (src : S.St) (w : XW K V) (h : InFile ok l0 w) :
    InFile ok l0 (zipRunFile S F total src w).2 := by
  unfold zipRunFile
  simp only []
  split
  · exact h
  · split
    · exact h
    · have g := zipOpen_inFile w h
      split
      · exact g
      · exact copyLoop_inv (zipIO S total) (fun q => InFile ok l0 q.2)
          (fun q hq => by
            show InFile ok l0 (S.read (zipOnSave total) 32768 q.1 q.2).2.2
            rcases hS _ (zipOnSave total) 32768 q.1 q.2 with a | ⟨ck, a⟩
            · rw [a]; exact hq
            · rw [a]; exact zipOnSave_inFile total ck q.2 hq)
          (fun bs q hq => write_inFile bs q.2 hq) (fun q hq => ⟨hq.log.say (by simp) (by simp) (by simp), hq.cur⟩) (fun n q hq => ⟨hq.log, hq.cur⟩)
          (fun q hq => hq) F 0 _ ⟨g.log, g.cur⟩

theorem ioCopy_inFile : ∀ (chunks : List (List Byte)) (e : Option Err) (w : XW K V), InFile ok l0 w → InFile ok l0 (ioCopy chunks e w).2 := by
  intro chunks
  induction chunks with
  | nil => intro e w h; exact h
  | cons c cs ih =>
    intro e w h
    unfold ioCopy
    split
    · exact ih e w h
    · simp only []
      have h1 := write_inFile c w h
      split
      · exact h1
      · split
        · exact h1
        · exact ih e _ h1

/-- A link of the archive. -/
def ZipLink (A : Archive) (e : Entry) (t : Str) : Prop := ∃ zf ∈ A.files, e = zipFileEntry zf ∧ e.kind = .symlink ∧ t = zf.opened.1

theorem zipEntry_links (A : Archive) (env : ZEnv) (D : Decomp) (F : Nat) (total : Int) (i : Nat) (zf : ZFile)
    (w : XW K V) (h : LinksOK ok l0 w.log)
    (hok : ∀ chunks, (w.ck.entry.getD (zipFileEntry zf)).kind = .symlink → env.opens i = .ok (chunks, none) → ok (w.ck.entry.getD (zipFileEntry zf)) chunks.flatten) :
    LinksOK ok l0 (zipEntry A env D F total i zf w).2.log := by
  have key : ∀ (r : Option Err × XW K V), LinksOK ok l0 r.2.log → LinksOK ok l0 (match r.1 with
      | some e => (some e, r.2)
      | none => (none, { r.2 with done := wrap64 (r.2.done + zf.usize) })).2.log := by
    rintro ⟨r1, r2⟩ hr
    cases r1 <;> exact hr
  unfold zipEntry
  simp only []
  split
  · exact h
  · refine key _ ?_
    split
    · exact h.say (by simp) (by simp) (by simp)
    · rename_i hk
      split
      · exact h
      · exact h
      · rename_i chunks ho
        refine h.say ?_ (by simp) (by simp)
        intro e t r heq
        cases heq
        exact hok chunks hk ho
    · rename_i hk
      have hf : InFile ok l0 ({ w with ck := { w.ck with entryIndex := i, entry := some (w.ck.entry.getD (zipFileEntry zf)) } } : XW K V) :=
        ⟨h, _, rfl, hk⟩
      unfold zipFile
      split
      · split
        · exact h
        · exact (zipRunFile_inFile seekM seek_conduit F total _ _ hf).log
      · split
        · exact h
        · exact (zipRunFile_inFile _ (wrap_reports _ _ _ _).conduit F total _ _ hf).log
      · unfold zipCopyFile
        simp only []
        split
        · exact h
        · rename_i chunks e _
          have g := zipOpen_inFile (K := K) (V := V) (ok := ok) (l0 := l0)
            { w with ck := { w.ck with entryIndex := i, entry := (some (w.ck.entry.getD (zipFileEntry zf))).map fun e => { e with woff := 0 } } }
            ⟨h, _, rfl, hk⟩
          split
          · exact g.log
          · exact (ioCopy_inFile _ _ _ g).log

theorem zipLoop_links (A : Archive) (env : ZEnv) (D : Decomp) (F : Nat) (total : Int)
    (hok : ∀ (i : Nat) (zf : ZFile) chunks, A.files[i]? = some zf → (zipFileEntry zf).kind = .symlink → env.opens i = .ok (chunks, none) →
      ok (zipFileEntry zf) chunks.flatten) : ∀ (fs : List ZFile) (i : Nat)
    (w : XW K V), fs = A.files.drop i → LinksOK ok l0 w.log → (∀ e t, w.ck.entry = some e → e.kind = .symlink → ok e t) →
    LinksOK ok l0 (zipLoop A env D F total fs i w).2.log := by
  intro fs
  induction fs with
  | nil => intro i w _ h _; exact h
  | cons zf fs ih =>
    intro i w hfs h hc
    have hzf : A.files[i]? = some zf := by
      have := congrArg List.head? hfs
      rw [List.head?_drop] at this
      exact this.symm
    have htl : fs = A.files.drop (i + 1) := by
      have := congrArg List.tail hfs
      rw [List.tail_drop] at this
      exact this
    unfold zipLoop
    split
    · exact h
    · have he := zipEntry_links A env D F total i zf w h (by
        intro chunks hk ho
        cases hx : w.ck.entry with
        | none => rw [hx] at hk; exact hok i zf chunks hzf hk ho
        | some e => rw [hx] at hk; exact hc e _ hx hk)
      simp only []
      split
      · exact he
      · exact ih _ _ htl he (by simp)

/-- The preallocation pass. -/
theorem zipPrealloc_said : ∀ (fs : List ZFile) (w : XW K V),
    (zipPrealloc fs w).2.ck = w.ck ∧ (((zipPrealloc fs w).1 = none ∧
      (zipPrealloc fs w).2.log = w.log ++ ((fs.map zipFileEntry).filter fun e => e.kind = .file).map fun e => .prealloc e none) ∨
    ∃ a e b x, (fs.map zipFileEntry).filter (fun e => e.kind = .file) = a ++ e :: b ∧ (zipPrealloc fs w).1 = some (.wrapped x) ∧
      (zipPrealloc fs w).2.log = w.log ++ (a.map fun e => .prealloc e none) ++ [.prealloc e (some x)]) := by
  intro fs
  induction fs with
  | nil => intro w; exact ⟨rfl, Or.inl ⟨rfl, by simp [zipPrealloc]⟩⟩
  | cons zf fs ih =>
    intro w
    unfold zipPrealloc
    split
    · rename_i hk
      have hf : ((zf :: fs).map zipFileEntry).filter (fun e => e.kind = .file) = zipFileEntry zf :: (fs.map zipFileEntry).filter fun e => e.kind = .file := by
        rw [List.map_cons, List.filter_cons_of_pos (by simp [hk])]
      rw [hf]
      simp only []
      split
      · rename_i x hx
        exact ⟨rfl, Or.inr ⟨[], _, _, x, rfl, rfl, by simp [XW.say, hx]⟩⟩
      · rename_i hx
        obtain ⟨h1, h2⟩ := ih (({ w with sink := (K.preallocate (zipFileEntry zf) w.sink).2 } : XW K V).say (.prealloc (zipFileEntry zf) (K.preallocate (zipFileEntry zf) w.sink).1))
        refine ⟨h1, ?_⟩
        rcases h2 with ⟨a, b⟩ | ⟨a, e, b, x, c1, c2, c3⟩
        · exact Or.inl ⟨a, by rw [b]; simp [XW.say, hx]⟩
        · exact Or.inr ⟨zipFileEntry zf :: a, e, b, x, by rw [c1]; rfl, c2, by rw [c3]; simp [XW.say, hx]⟩
    · rename_i hk
      have hf : ((zf :: fs).map zipFileEntry).filter (fun e => e.kind = .file) = (fs.map zipFileEntry).filter fun e => e.kind = .file := by
        rw [List.map_cons, List.filter_cons_of_neg (by simp [hk])]
      rw [hf]
      exact ih w

/-- The log of a run: what was preallocated, then the rest. -/
theorem zipResume_links (A : Archive) (env : ZEnv) (D : Decomp) (F : Nat) (K : SinkM) (V : SaveCons) (ck : Option ECkpt) (k : K.St) (u : V.St)
    (hok : ∀ (i : Nat) (zf : ZFile) chunks, A.files[i]? = some zf → (zipFileEntry zf).kind = .symlink → env.opens i = .ok (chunks, none) →
      ok (zipFileEntry zf) chunks.flatten)
    (hck : ∀ c e t, ck = some c → c.entry = some e → e.kind = .symlink → ok e t) :
    LinksOK ok (zipPrepare A ck (zipInit A ck k u : XW K V)).2.log (zipResume A env D F K V ck k u).2.log ∧
    ∀ x, (zipPrepare A ck (zipInit A ck k u : XW K V)).1 = some x → (zipResume A env D F K V ck k u).1 = .error x ∧
      (zipResume A env D F K V ck k u).2 = (zipPrepare A ck (zipInit A ck k u : XW K V)).2 := by
  have hp : (zipPrepare A ck (zipInit A ck k u : XW K V)).2.ck = ck.getD freshCk := by
    unfold zipPrepare
    split
    · exact (zipPrealloc_said _ _).1
    · rfl
  unfold zipResume
  simp only []
  split
  · rename_i x hx
    exact ⟨.nil _, fun y hy => by rw [hx] at hy; cases hy; exact ⟨rfl, rfl⟩⟩
  · rename_i hx
    refine ⟨?_, fun y hy => by rw [hx] at hy; cases hy⟩
    split
    · exact .nil _
    · have hl := zipLoop_links A env D F (zipSum A.files) hok (A.files.drop (ck.getD freshCk).entryIndex.toNat) (ck.getD freshCk).entryIndex.toNat
        (zipPrepare A ck (zipInit A ck k u : XW K V)).2 rfl (.nil _) (by
          intro e t he hk
          rw [hp] at he
          cases ck with
          | none => cases he
          | some c => exact hck c e t rfl he hk)
      split
      · exact hl
      · split <;> exact hl

/-! ## tar -/

variable {S : SourceM} {Y : List Byte} {clean : Bool} {T : TarFmt}

/-- A link of the stream. -/
def TarLink (T : TarFmt) (clean : Bool) (Y : List Byte) (e : Entry) (t : Str) : Prop :=
  ∃ h ms st Y', TarPath T clean T.start Y (ms ++ [(h, [])]) st Y' ∧ h.typ = .symlink ∧ e = tarEntryOf h ∧ t = h.link

theorem tarLinks_inv (L : Lawful S Y clean) (pr : Ckpt → Int × Int) (o0 : Nat) :
    TarInv L T pr V K False o0 (fun _ _ w => LinksOK (TarLink T clean Y) [] w.log)
      (fun _ _ _ _ _ _ w => InFile (TarLink T clean Y) [] w) (fun w => LinksOK (TarLink T clean Y) [] w.log) (fun w => LinksOK (TarLink T clean Y) [] w.log) where
  p_end _ h := h
  b_index _ _ _ _ h := h
  b_end _ _ _ h := h
  dir ms R w h hb ht _ := ⟨fun _ => hb.say (by simp) (by simp) (by simp), fun _ => hb.say (by simp) (by simp) (by simp)⟩
  link ms R w h hb ht hp := by
    obtain ⟨st, Y', hp⟩ := hp
    have : ∀ r, LinksOK (TarLink T clean Y) [] (w.log ++ [.symlink (tarEntryOf h) h.link r]) := fun r => hb.say
      (by intro e t r he; cases he; exact ⟨h, ms, st, Y', hp, ht, rfl, rfl⟩) (by simp) (by simp)
    exact ⟨fun _ => this _, fun _ => this _⟩
  other ms R w h hb ht _ := hb
  file ms R w h z0 st0 hb _ hf := by
    refine ⟨fun _ => ⟨hb.say (by simp) (by simp) (by simp), tarEntryOf h, rfl, ?_⟩, fun _ => hb.say (by simp) (by simp) (by simp)⟩
    simp [tarEntryOf, hf.2.1]
  i_entry _ _ _ _ _ _ _ h := by obtain ⟨_, e, he, _⟩ := h; rw [he]; simp
  save ms h R z0 st0 o c sck hf hi him ho0 hqt hck hst hse hix := by
    unfold tarOnSave
    split
    · exact hi
    · split
      · exact hi
      · rename_i im _
        have h2 : ∀ ck a, ck.entry = c.xw.ck.entry → LinksOK (TarLink T clean Y) [] (c.xw.log ++ [.save ck a]) := by
          intro ck a he
          exact hi.log.say (by simp) (by intro c' a' e; cases e; rw [he]; exact hi.cur) (by simp)
        simp only []
        split <;> exact ⟨h2 _ _ rfl, hi.cur⟩
  write ms h R z0 st0 o w bs hf hi _ _ _ _ := ⟨fun _ => write_inFile bs w hi, fun _ => (write_inFile bs w hi).log⟩
  should _ _ _ _ _ _ _ _ h := ⟨h.log, h.cur⟩
  emit ms h R z0 st0 o w p hi := ⟨hi.log.say (by simp) (by simp) (by simp), hi.cur⟩
  i_end ms h _ z0 _ o _ hi := hi.log
  i_stop ms h R z0 st0 o w p hi _ _ := hi.log.say (by simp) (by simp) (by simp)
  finish ms h R z0 st0 w p e hf hi _ _ _ _ := hi.log.say (by simp) (by simp) (by simp)

theorem tarRun_links {Ck : Ckpt → Nat → Prop} {F : Nat} (hT : T.Law) (X : TarSrc Y clean Ck F) (pr : Ckpt → Int × Int) (ck : Option ECkpt) (k : K.St) (u : V.St)
    {o0 : Nat} (hst : TarFrom T clean Y Ck ck o0) : LinksOK (TarLink T clean Y) [] (tarRun X T pr K V ck k u).2.2.log := by
  have hs : TarStart (K := K) X.L T F V k u (fun _ _ w => LinksOK (TarLink T clean Y) [] w.log)
      (fun _ _ _ _ _ _ w => InFile (TarLink T clean Y) [] w) (fun w => LinksOK (TarLink T clean Y) [] w.log) ck o0 := by
    rcases hst with ⟨a, b⟩ | ⟨c, i, a, b⟩
    · subst b; exact .fresh (by simp [a]) (.nil [])
    · obtain ⟨ms, h, R, z0, st0, e, d1, d2, d3⟩ := b.mono fun c o => (X.family c o).mpr
      subst a
      have hl : ∀ r, LinksOK (TarLink T clean Y) [] [.openW e r] := fun r => (LinksOK.nil []).say (ev := .openW e r) (by simp) (by simp) (by simp)
      refine .again d1 (.nil []) (fun _ => ⟨hl none, e, d1.entry, ?_⟩) (fun _ => hl _)
      obtain ⟨x, hx⟩ := d2
      rw [hx]; simp [tarEntryOf, d1.file.2.1]
  obtain ⟨r, s', w', g1, g2, _⟩ := tarResume_rule hT X.L (tarLinks_inv X.L pr o0) X.budget X.good (fun h => h.elim) hs
  unfold tarRun
  rw [g1]
  rcases g2 with ⟨x, a, b, _⟩ | ⟨res, a, ms, b, c⟩
  · exact b
  · exact c

end
end Savior
