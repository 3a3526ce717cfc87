import Verif.Spec.Spacing
import Verif.Zip
import Verif.Tar
/-!
# How far apart checkpoints are (for C91)
-/

namespace Savior

theorem unsavedHere_snoc (log : List Ev) (ev : Ev) : unsavedHere (log ++ [ev]) =
    match ev with | .write bs _ _ => unsavedHere log + bs.length | .save _ _ => 0 | .openW _ _ => 0 | _ => unsavedHere log := by
  unfold unsavedHere; rw [List.foldl_append]; rfl

theorem unsaved_snoc (log : List Ev) (ev : Ev) : unsaved (log ++ [ev]) =
    match ev with | .write bs _ _ => unsaved log + bs.length | .save _ _ => 0 | _ => unsaved log := by
  unfold unsaved; rw [List.foldl_append]; rfl

theorem opensSince_snoc (log : List Ev) (ev : Ev) : opensSince (log ++ [ev]) =
    match ev with | .openW _ _ => opensSince log + 1 | .save _ _ => 0 | _ => opensSince log := by
  unfold opensSince; rw [List.foldl_append]; rfl

/-- At every moment before a failed `Sync`, at most `B` bytes are unsaved. -/
def Spread (B : Nat) (log : List Ev) : Prop := ∀ pre, pre <+: log → SyncsFine pre → unsavedHere pre ≤ B

theorem prefix_snoc {α : Type} {l pre : List α} {a : α} (h : pre <+: l ++ [a]) : pre <+: l ∨ pre = l ++ [a] := by
  obtain ⟨t, ht⟩ := h
  rcases List.eq_nil_or_concat t with rfl | ⟨t', b, rfl⟩
  · right; simpa using ht
  · left
    rw [List.concat_eq_append, ← List.append_assoc] at ht
    have := List.append_inj_left' ht rfl
    exact ⟨t', this⟩

theorem Spread.nil {B : Nat} : Spread B [] := by
  intro pre h _
  have : pre = [] := List.prefix_nil.mp h
  subst this
  simp [unsavedHere]

theorem Spread.snoc {B : Nat} {log : List Ev} {ev : Ev} (h : Spread B log) (h2 : SyncsFine log → unsavedHere (log ++ [ev]) ≤ B) : Spread B (log ++ [ev]) := by
  intro pre hp hs
  rcases prefix_snoc hp with a | a
  · exact h pre a hs
  · subst a
    exact h2 fun e he => hs e (List.mem_append_left _ he)

theorem Spread.self {B : Nat} {log : List Ev} (h : Spread B log) (h2 : SyncsFine log) : unsavedHere log ≤ B := h log (List.prefix_refl _) h2

/-- An event that neither writes, opens nor saves. -/
theorem Spread.other {B : Nat} {log : List Ev} {ev : Ev} (h : Spread B log) (h1 : unsavedHere (log ++ [ev]) = unsavedHere log ∨ unsavedHere (log ++ [ev]) = 0) :
    Spread B (log ++ [ev]) := by
  refine h.snoc fun hs => ?_
  rcases h1 with e | e
  · rw [e]; exact h.self hs
  · omega

/-- Over several files. -/
theorem Spread.files {B : Nat} : ∀ {log : List Ev}, Spread B log → SyncsFine log → unsaved log ≤ opensSince log * B + unsavedHere log := by
  suffices H : ∀ n (log : List Ev), log.length = n → Spread B log → SyncsFine log → unsaved log ≤ opensSince log * B + unsavedHere log from
    fun {log} => H _ log rfl
  intro n
  induction n with
  | zero => intro log hl _ _; rw [List.length_eq_zero_iff.mp hl]; simp [unsaved]
  | succ n ih =>
    intro log hl h hs
    rcases List.eq_nil_or_concat log with rfl | ⟨log, ev, rfl⟩
    · simp at hl
    rw [List.concat_eq_append] at *
    have h0 : Spread B log := fun pre hp hq => h pre (hp.trans (List.prefix_append _ _)) hq
    have hs0 : SyncsFine log := fun e he => hs e (List.mem_append_left _ he)
    have a := ih log (by simpa using hl) h0 hs0
    have b := h0.self hs0
    rw [unsaved_snoc, opensSince_snoc, unsavedHere_snoc]
    cases ev <;> simp only <;> first | omega | (rw [Nat.add_mul]; omega)

section
variable {V : SaveCons} {u0 : V.St} {T : Nat}

/-- At least `x` bytes ago (reckoned by what it was asked) the consumer last did anything but say no. -/
def Tallied (V : SaveCons) (u0 : V.St) (v : V.St) (x : Nat) : Prop := ∃ v1 ns, ConsReach V u0 v1 ∧ SaysNo V v1 ns v ∧ x ≤ ns.sum

theorem Tallied.zero {v : V.St} (h : ConsReach V u0 v) : Tallied V u0 v 0 := ⟨v, [], h, .nil, Nat.zero_le _⟩

theorem Tallied.le (hT : AsksWithin V u0 T) {v : V.St} {x : Nat} (h : Tallied V u0 v x) : x ≤ T := by
  obtain ⟨v1, ns, a, b, c⟩ := h
  have := hT v1 ns v a b
  omega

theorem Tallied.no {v : V.St} {x : Nat} (h : Tallied V u0 v x) (n : Nat) (hn : (V.shouldSave n v).1 = false) :
    Tallied V u0 (V.shouldSave n v).2 (x + n) := by
  obtain ⟨v1, ns, a, b, c⟩ := h
  exact ⟨v1, ns ++ [n], a, b.snoc n hn, by simp; omega⟩

/-- Where copying stands: the events so far, the consumer, and whether a request is pending which the next read will serve. -/
def Spaced (V : SaveCons) (u0 : V.St) (T : Nat) (log : List Ev) (v : V.St) (pend : Prop) : Prop :=
  Spread (T + 32768) log ∧ ConsReach V u0 v ∧ (SyncsFine log → pend ∨ Tallied V u0 v (unsavedHere log))

/-- What `copier.Do` needs to know of its surroundings. -/
structure SpaceIO {W : Type} (io : CopyIO W) (V : SaveCons) (u0 : V.St) (T : Nat) (Ok : W → Prop) (lg : W → List Ev) (cs : W → V.St) (pend : W → Prop) : Prop where
  read : ∀ w, Ok w → Spaced V u0 T (lg w) (cs w) (pend w) → Ok (io.read w).2 ∧
    Spaced V u0 T (lg (io.read w).2) (cs (io.read w).2) ((io.read w).1.1 = [] ∧ (io.read w).1.2 ≠ none) ∧ (io.read w).1.1.length ≤ 32768
  write : ∀ bs w, Ok w → Ok (io.write bs w).2 ∧ (∃ m e, lg (io.write bs w).2 = lg w ++ [.write bs m e]) ∧ cs (io.write bs w).2 = cs w
  emit : ∀ w, Ok w → Ok (io.emit w) ∧ (∃ p, lg (io.emit w) = lg w ++ [.progress p]) ∧ cs (io.emit w) = cs w
  should : ∀ (n : Nat) w, Ok w → Ok (io.shouldSave n w).2 ∧ lg (io.shouldSave n w).2 = lg w ∧
    (io.shouldSave n w).1 = (V.shouldSave n (cs w)).1 ∧ cs (io.shouldSave n w).2 = (V.shouldSave n (cs w)).2
  want : ∀ w, Ok w → Ok (io.wantSave w) ∧ lg (io.wantSave w) = lg w ∧ cs (io.wantSave w) = cs w ∧ pend (io.wantSave w)

theorem copyLoop_spaced {W : Type} {io : CopyIO W} {Ok : W → Prop} {lg : W → List Ev} {cs : W → V.St} {pend : W → Prop}
    (hT : AsksWithin V u0 T) (H : SpaceIO io V u0 T Ok lg cs pend) :
    ∀ (fuel counter : Nat) (w : W), Ok w → Spaced V u0 T (lg w) (cs w) (pend w) →
      Ok (copyLoop io fuel counter w).2.1 ∧ Spread (T + 32768) (lg (copyLoop io fuel counter w).2.1) ∧ ConsReach V u0 (cs (copyLoop io fuel counter w).2.1) := by
  intro fuel
  induction fuel with
  | zero => intro counter w hok h; exact ⟨hok, h.1, h.2.1⟩
  | succ fuel ih =>
    intro counter w hok h
    unfold copyLoop
    by_cases hst : io.stopped w = true
    · simp only [hst, if_true]; exact ⟨hok, h.1, h.2.1⟩
    · simp only [hst, Bool.false_eq_true, if_false]
      obtain ⟨r1, r2, r3⟩ := H.read w hok h
      generalize io.read w = R at *
      obtain ⟨⟨bs, e⟩, w1⟩ := R
      simp only at r1 r2 r3 ⊢
      obtain ⟨m1, ⟨m, x, m2⟩, m3⟩ := H.write bs w1 r1
      generalize io.write bs w1 = M at *
      obtain ⟨⟨k, we⟩, w2⟩ := M
      simp only at m1 m2 m3 ⊢
      have hsp : Spread (T + 32768) (lg w2) := by
        rw [m2]
        refine r2.1.snoc fun hs => ?_
        rw [unsavedHere_snoc]
        simp only
        rcases r2.2.2 hs with ⟨a, _⟩ | a
        · subst a; simpa using r2.1.self hs
        · have := a.le hT; omega
      have hre : ConsReach V u0 (cs w2) := by rw [m3]; exact r2.2.1
      cases we with
      | some x => exact ⟨m1, hsp, hre⟩
      | none =>
        simp only
        obtain ⟨w3, hw3, q1, q2, q3, q4⟩ : ∃ w3, (if decide (progressThreshold < counter + k) = true then io.emit w2 else w2) = w3 ∧ Ok w3 ∧
            (SyncsFine (lg w3) → SyncsFine (lg w2)) ∧ (Spread (T + 32768) (lg w3) ∧ unsavedHere (lg w3) = unsavedHere (lg w2)) ∧ cs w3 = cs w2 := by
          refine ⟨_, rfl, ?_⟩
          split
          · obtain ⟨a, ⟨p, b⟩, c⟩ := H.emit w2 m1
            refine ⟨a, fun h2 e he => h2 e (by rw [b]; exact List.mem_append_left _ he), ?_, c⟩
            rw [b]
            have : unsavedHere (lg w2 ++ [.progress p]) = unsavedHere (lg w2) := by rw [unsavedHere_snoc]
            exact ⟨hsp.other (Or.inl this), this⟩
          · exact ⟨m1, id, ⟨hsp, rfl⟩, rfl⟩
        rw [hw3]
        cases e with
        | some y => exact ⟨q1, q3.1, by rw [q4]; exact hre⟩
        | none =>
          simp only
          obtain ⟨s1, s2, s3, s4⟩ := H.should bs.length w3 q1
          generalize io.shouldSave bs.length w3 = Sv at *
          obtain ⟨ans, w4⟩ := Sv
          simp only at s1 s2 s3 s4 ⊢
          have hsp4 : Spread (T + 32768) (lg w4) := by rw [s2]; exact q3.1
          have hre4 : ConsReach V u0 (cs w4) := by rw [s4]; refine .ask _ ?_; rw [q4]; exact hre
          cases ans with
          | true =>
            simp only [if_true]
            obtain ⟨t1, t2, t3, t4⟩ := H.want w4 s1
            exact ih _ _ t1 ⟨by rw [t2]; exact hsp4, by rw [t3]; exact hre4, fun _ => Or.inl t4⟩
          | false =>
            simp only [Bool.false_eq_true, if_false]
            refine ih _ _ s1 ⟨hsp4, hre4, fun hs => Or.inr ?_⟩
            rw [s2] at hs
            have hs2 := q2 hs
            have hs1 : SyncsFine (lg w1) := fun e he => hs2 e (by rw [m2]; exact List.mem_append_left _ he)
            rcases r2.2.2 hs1 with ⟨_, a⟩ | a
            · exact absurd rfl a
            · rw [s2, s4, q3.2, m2, unsavedHere_snoc]
              simp only
              rw [q4, m3]
              rw [q4, m3] at s3
              exact a.no _ s3.symm

end

/-- What `Read` of a seek source with a save consumer does about a pending request. -/
theorem seekRead_save {C : Type} (cb : Callback C) (n : Nat) (ss : SeekSt) (c : C) (h : ss.hasSSC = true) :
    (Seek.read cb n ss c).1.1.length ≤ n ∧ (Seek.read cb n ss c).2.1.hasSSC = true ∧
    (((Seek.read cb n ss c).1.1 = [] ∧ (Seek.read cb n ss c).1.2 ≠ none ∧ (Seek.read cb n ss c).2.2 = c) ∨
      (n = 0 ∧ (Seek.read cb n ss c).2.2 = c) ∨
      (Seek.read cb n ss c).2.2 = if ss.wantSave then (cb (.plain ss.offset) c).1 else c) := by
  unfold Seek.read
  split
  · exact ⟨by simp, h, Or.inl ⟨rfl, by simp, rfl⟩⟩
  · rename_i b hb
    split
    · rename_i hn; exact ⟨by simp, h, Or.inr (Or.inl ⟨hn, rfl⟩)⟩
    · dsimp only
      split
      · exact ⟨by simp, h, Or.inl ⟨rfl, by simp, rfl⟩⟩
      · split
        · exact ⟨by simp, h, Or.inl ⟨rfl, by simp, rfl⟩⟩
        · have hh : ∃ w, Seek.handleSave cb ss c = ({ ss with wantSave := w }, if ss.wantSave then (cb (.plain ss.offset) c).1 else c) := by
            unfold Seek.handleSave
            cases hw : ss.wantSave with
            | true => exact ⟨false, by simp [h]⟩
            | false => exact ⟨false, by simp only [hw, Bool.false_eq_true, if_false]; rw [← hw]⟩
          obtain ⟨w, hw⟩ := hh
          rw [hw]
          dsimp only
          generalize (if ss.wantSave = true then (cb (.plain ss.offset) c).1 else c) = z
          simp only [hb]
          refine ⟨?_, h, Or.inr (Or.inr trivial)⟩
          have hle : ∀ (rs : Rs) k, (rs.read k).1.1.length ≤ k := by
            intro rs k
            unfold Rs.read
            dsimp only
            split
            · simp only [List.length_take]; omega
            · split
              · simp
              · simp only [List.length_take]; omega
          have hb2 : ∀ k, (b.read ss.rs k).1.1.length ≤ k := by
            intro k
            unfold Bufio.read
            split
            · split
              · simp
              · split
                · exact hle _ _
                · dsimp only; split
                  · simp
                  · simp only [List.length_take]; omega
            · simp only [List.length_take]; omega
          have h3 : (if (n : Int) > ss.size - ss.offset then (ss.size - ss.offset).toNat else n) ≤ n := by split <;> omega
          exact Nat.le_trans (hb2 _) h3

section
variable {K : SinkM} {V : SaveCons} {u0 : V.St} {T : Nat}

theorem zipOnSave_spaced {total : Int} {sck : Ckpt} {w : XW K V} {p q : Prop} (h : Spaced V u0 T w.log w.cons p) :
    Spaced V u0 T (zipOnSave total sck w).1.log (zipOnSave total sck w).1.cons q := by
  obtain ⟨h1, h2, _⟩ := h
  unfold zipOnSave
  dsimp only
  split
  · rename_i e he
    refine ⟨h1.other (Or.inl (unsavedHere_snoc _ _)), h2, fun hs => absurd ?_ (hs e)⟩
    simp only [XW.say] at he ⊢
    rw [he]; simp
  · have key : ∀ ck a, Spread (T + 32768) ((w.log ++ [Ev.sync (K.sync w.sink).1]) ++ [.save ck a]) := fun ck a =>
      (h1.other (Or.inl (unsavedHere_snoc _ _))).other (Or.inr (unsavedHere_snoc _ _))
    have hz : ∀ (l : List Ev) ck a, unsavedHere (l ++ [.save ck a]) = 0 := fun l ck a => unsavedHere_snoc _ _
    split <;> refine ⟨key _ _, h2.save _, fun _ => Or.inr ?_⟩ <;>
      (simp only [XW.say]; rw [hz]; exact .zero (h2.save _))

theorem zipIO_spaced (total : Int) : SpaceIO (zipIO (K := K) (V := V) seekM total) V u0 T (fun w => SeekSt.hasSSC w.1 = true) (fun w => w.2.log) (fun w => w.2.cons)
    (fun w => SeekSt.wantSave w.1 = true) where
  read w hok h := by
    obtain ⟨ss, w⟩ := w
    replace hok : SeekSt.hasSSC ss = true := hok
    replace h : Spaced V u0 T w.log w.cons (SeekSt.wantSave ss = true) := h
    obtain ⟨a, b, c⟩ := seekRead_save (zipOnSave (K := K) (V := V) total) 32768 ss w hok
    show SeekSt.hasSSC (Seek.read (zipOnSave total) 32768 ss w).2.1 = true ∧ Spaced V u0 T (Seek.read (zipOnSave total) 32768 ss w).2.2.log
      (Seek.read (zipOnSave total) 32768 ss w).2.2.cons
      ((Seek.read (zipOnSave total) 32768 ss w).1.1 = [] ∧ (Seek.read (zipOnSave total) 32768 ss w).1.2 ≠ none) ∧ _
    refine ⟨b, ?_, a⟩
    rcases c with ⟨c1, c2, c3⟩ | ⟨c1, _⟩ | c3
    · rw [c3]; exact ⟨h.1, h.2.1, fun _ => Or.inl ⟨c1, c2⟩⟩
    · omega
    · rw [c3]
      cases hw : SeekSt.wantSave ss with
      | true => simp only [if_true]; exact zipOnSave_spaced h
      | false =>
        simp only [Bool.false_eq_true, if_false]
        refine ⟨h.1, h.2.1, fun hs => ?_⟩
        rcases h.2.2 hs with d | d
        · rw [hw] at d; cases d
        · exact Or.inr d
  write bs w hok := ⟨hok, ⟨_, _, rfl⟩, rfl⟩
  emit w hok := ⟨hok, ⟨_, rfl⟩, rfl⟩
  should n w hok := ⟨hok, rfl, rfl, rfl⟩
  want w hok := ⟨hok, rfl, rfl, rfl⟩

/-- The log and the consumer's state are as they should be. -/
def SpaceOk (V : SaveCons) (u0 : V.St) (T : Nat) (w : XW K V) : Prop := Spread (T + 32768) w.log ∧ ConsReach V u0 w.cons

theorem SpaceOk.open {w : XW K V} (h : SpaceOk V u0 T w) (s : K.St) (e : Entry) (x : Option Err) (p : Prop) :
    Spaced V u0 T (({ w with sink := s } : XW K V).say (.openW e x)).log w.cons p :=
  ⟨h.1.other (Or.inr (unsavedHere_snoc _ _)), h.2, fun _ => Or.inr (by
    show Tallied V u0 w.cons (unsavedHere (w.log ++ [.openW e x]))
    rw [unsavedHere_snoc]; exact .zero h.2)⟩

theorem zipRunFile_space (hT : AsksWithin V u0 T) (F : Nat) (total : Int) (src : SeekSt) (w : XW K V) (h : SpaceOk V u0 T w) :
    SpaceOk V u0 T (zipRunFile seekM F total src w).2 := by
  unfold zipRunFile
  dsimp only
  generalize seekM.resume w.ck.srcCk src = Q
  obtain ⟨r, s⟩ := Q
  cases r with
  | error e => exact h
  | ok off =>
    simp only
    generalize (if off < (match w.ck.entry with | some e => e.woff | none => 0) then
      discard seekM (fun _ c => (c, none)) F ((match w.ck.entry with | some e => e.woff | none => 0) - off) s () else (none, s, ()) : Option Err × seekM.St × Unit) = d
    obtain ⟨de, s2, _⟩ := d
    cases de with
    | some e => exact h
    | none =>
      simp only
      have hg : (zipOpen w).1 ≠ none ∧ SpaceOk V u0 T (zipOpen w).2 ∨ Spaced V u0 T (zipOpen w).2.log (zipOpen w).2.cons (SeekSt.wantSave (seekM.setSSC true s2) = true) := by
        unfold zipOpen
        split
        · exact Or.inl ⟨nofun, h⟩
        · exact Or.inr (h.open _ _ _ _)
      generalize zipOpen w = G at *
      obtain ⟨ge, w1⟩ := G
      cases ge with
      | some e =>
        rcases hg with a | a
        · exact a.2
        · exact ⟨a.1, a.2.1⟩
      | none =>
        simp only
        rcases hg with a | a
        · exact absurd rfl a.1
        · have := copyLoop_spaced hT (zipIO_spaced (K := K) total) F 0 (seekM.setSSC true s2, { w1 with stop := false }) rfl a
          exact this.2

theorem SpaceOk.say {w : XW K V} (h : SpaceOk V u0 T w) (s : K.St) {ev : Ev} (hev : ∀ l, unsavedHere (l ++ [ev]) = unsavedHere l) :
    SpaceOk V u0 T (({ w with sink := s } : XW K V).say ev) := ⟨h.1.other (Or.inl (hev _)), h.2⟩

theorem zipEntry_space (hT : AsksWithin V u0 T) (A : Archive) (env : ZEnv) (D : Decomp) (F : Nat) (total : Int) (i : Nat) (zf : ZFile) (hst : zf.method = .store)
    (w : XW K V) (h : SpaceOk V u0 T w) : SpaceOk V u0 T (zipEntry A env D F total i zf w).2 := by
  unfold zipEntry
  dsimp only
  generalize w.ck.entry.getD (zipFileEntry zf) = e
  have h1 : SpaceOk V u0 T ({ w with ck := { w.ck with entryIndex := i, entry := some e } } : XW K V) := h
  split
  · exact h1
  · have key : ∀ r : Option Err × XW K V, SpaceOk V u0 T r.2 →
        SpaceOk V u0 T (match r.1 with | some e => (some e, r.2) | none => (none, { r.2 with done := wrap64 (r.2.done + zf.usize) }) : Option Err × XW K V).2 := by
      intro r hr
      split <;> exact hr
    refine key _ ?_
    split
    · exact ⟨h.1.other (Or.inl (unsavedHere_snoc _ (.mkdir _ _))), h.2⟩
    · split
      · exact h1
      · exact h1
      · exact ⟨h.1.other (Or.inl (unsavedHere_snoc _ (.symlink _ _ _))), h.2⟩
    · unfold zipFile
      rw [hst]
      simp only
      split
      · exact h1
      · exact zipRunFile_space hT F total _ _ h1

theorem zipLoop_space (hT : AsksWithin V u0 T) (A : Archive) (env : ZEnv) (D : Decomp) (F : Nat) (total : Int) : ∀ (fs : List ZFile) (i : Nat) (w : XW K V),
    (∀ zf ∈ fs, zf.method = .store) → SpaceOk V u0 T w → SpaceOk V u0 T (zipLoop A env D F total fs i w).2
  | [], _, _, _, h => h
  | zf :: fs, i, w, hst, h => by
    unfold zipLoop
    split
    · exact h
    · have := zipEntry_space hT A env D F total i zf (hst zf List.mem_cons_self) w h
      dsimp only
      split
      · exact this
      · exact zipLoop_space hT A env D F total fs (i + 1) _ (fun z hz => hst z (List.mem_cons_of_mem _ hz)) this

theorem zipPrealloc_space : ∀ (fs : List ZFile) (w : XW K V), SpaceOk V u0 T w → SpaceOk V u0 T (zipPrealloc fs w).2
  | [], _, h => h
  | zf :: fs, w, h => by
    unfold zipPrealloc
    split
    · have h1 := h.say (K.preallocate (zipFileEntry zf) w.sink).2 (ev := .prealloc (zipFileEntry zf) (K.preallocate (zipFileEntry zf) w.sink).1) fun l => unsavedHere_snoc _ _
      dsimp only
      split
      · exact h1
      · exact zipPrealloc_space fs _ h1
    · exact zipPrealloc_space fs w h

theorem zipResume_space (A : Archive) (env : ZEnv) (D : Decomp) (F : Nat) (ck : Option ECkpt) (k : K.St) (u : V.St) (hT : AsksWithin V u T)
    (hst : ∀ zf ∈ A.files, zf.method = .store) : Spread (T + 32768) (zipResume A env D F K V ck k u).2.log := by
  have h0 : SpaceOk V u T (zipInit (K := K) A ck k u) := ⟨.nil, .start⟩
  have h1 : SpaceOk V u T (zipPrepare A ck (zipInit (K := K) A ck k u)).2 := by
    unfold zipPrepare
    split
    · exact zipPrealloc_space _ _ h0
    · exact h0
  unfold zipResume
  dsimp only
  generalize zipPrepare A ck (zipInit (K := K) A ck k u) = p at *
  split
  · exact h1.1
  · split
    · exact h1.1
    · have := zipLoop_space hT A env D F (zipSum A.files) (A.files.drop (ck.getD freshCk).entryIndex.toNat) (ck.getD freshCk).entryIndex.toNat p.2
        (fun z hz => hst z (List.mem_of_mem_drop hz)) h1
      split
      · exact this.1
      · split <;> exact this.1

/-! ## tar -/

variable {Z : TarFmt}

theorem tarOnSave_spaced (pr : Ckpt → Int × Int) {sck : Ckpt} {c : TC Z K V} (hsv : ∀ st, Z.save st ≠ none) (hcur : c.cur = true) {p q : Prop}
    (h : Spaced V u0 T c.xw.log c.xw.cons p) :
    (tarOnSave Z pr sck c).1.cur = true ∧ Spaced V u0 T (tarOnSave Z pr sck c).1.xw.log (tarOnSave Z pr sck c).1.xw.cons q := by
  obtain ⟨h1, h2, _⟩ := h
  unfold tarOnSave
  rw [hcur]
  simp only [Bool.true_eq_false, if_false]
  split
  · rename_i e; exact absurd e (hsv _)
  · have key : ∀ ck a, Spread (T + 32768) (c.xw.log ++ [.save ck a]) := fun ck a => h1.other (Or.inr (unsavedHere_snoc _ _))
    have hz : ∀ (l : List Ev) ck a, unsavedHere (l ++ [.save ck a]) = 0 := fun l ck a => unsavedHere_snoc _ _
    split <;> refine ⟨rfl, key _ _, h2.save _, fun _ => Or.inr ?_⟩ <;>
      (simp only [XW.say]; rw [hz]; exact .zero (h2.save _))

theorem tarIO_spaced (pr : Ckpt → Int × Int) (hsv : ∀ st, Z.save st ≠ none) : SpaceIO (tarIO (K := K) (V := V) seekM Z pr) V u0 T
    (fun w => SeekSt.hasSSC w.1 = true ∧ w.2.cur = true) (fun w => w.2.xw.log) (fun w => w.2.xw.cons)
    (fun w => SeekSt.wantSave w.1 = true) where
  read w hok h := by
    obtain ⟨ss, c⟩ := w
    obtain ⟨hok, hcur⟩ := hok
    replace hok : SeekSt.hasSSC ss = true := hok
    replace hcur : c.cur = true := hcur
    replace h : Spaced V u0 T c.xw.log c.xw.cons (SeekSt.wantSave ss = true) := h
    show (SeekSt.hasSSC (tarRead seekM Z pr ss c).2.1 = true ∧ (tarRead seekM Z pr ss c).2.2.cur = true) ∧ Spaced V u0 T (tarRead seekM Z pr ss c).2.2.xw.log
      (tarRead seekM Z pr ss c).2.2.xw.cons ((tarRead seekM Z pr ss c).1.1 = [] ∧ (tarRead seekM Z pr ss c).1.2 ≠ none) ∧
      (tarRead seekM Z pr ss c).1.1.length ≤ 32768
    unfold tarRead
    split
    · exact ⟨⟨hok, hcur⟩, ⟨h.1, h.2.1, fun _ => Or.inl ⟨rfl, nofun⟩⟩, by simp⟩
    · rename_i hrem
      obtain ⟨a, b, d⟩ := seekRead_save (tarOnSave (K := K) (V := V) Z pr) (min 32768 (Z.rem c.rd)) ss c hok
      have hx : (Seek.read (tarOnSave Z pr) (min 32768 (Z.rem c.rd)) ss c).2.2.cur = true ∧
          Spaced V u0 T (Seek.read (tarOnSave Z pr) (min 32768 (Z.rem c.rd)) ss c).2.2.xw.log (Seek.read (tarOnSave Z pr) (min 32768 (Z.rem c.rd)) ss c).2.2.xw.cons
            ((Seek.read (tarOnSave Z pr) (min 32768 (Z.rem c.rd)) ss c).1.1 = [] ∧ (Seek.read (tarOnSave Z pr) (min 32768 (Z.rem c.rd)) ss c).1.2 ≠ none) := by
        rcases d with ⟨c1, c2, c3⟩ | ⟨c1, _⟩ | c3
        · rw [c3]; exact ⟨hcur, h.1, h.2.1, fun _ => Or.inl ⟨c1, c2⟩⟩
        · omega
        · rw [c3]
          cases hw : SeekSt.wantSave ss with
          | true => simp only [if_true]; exact tarOnSave_spaced pr hsv hcur h
          | false =>
            simp only [Bool.false_eq_true, if_false]
            refine ⟨hcur, h.1, h.2.1, fun hs => ?_⟩
            rcases h.2.2 hs with d | d
            · rw [hw] at d; cases d
            · exact Or.inr d
      generalize hR : Seek.read (tarOnSave Z pr) (min 32768 (Z.rem c.rd)) ss c = R at *
      have hR' : seekM.read (tarOnSave Z pr) (min 32768 (Z.rem c.rd)) ss c = R := hR
      rw [hR']
      obtain ⟨⟨bs, e⟩, ss', c'⟩ := R
      simp only at a b hx ⊢
      refine ⟨⟨b, hx.1⟩, ⟨hx.2.1, hx.2.2.1, fun hs => ?_⟩, by omega⟩
      rcases hx.2.2.2 hs with ⟨g1, g2⟩ | g
      · refine Or.inl ⟨g1, ?_⟩
        cases e with
        | none => exact absurd rfl g2
        | some x => simp only; split <;> simp
      · exact Or.inr g
  write bs w hok := ⟨hok, ⟨_, _, rfl⟩, rfl⟩
  emit w hok := ⟨hok, ⟨_, rfl⟩, rfl⟩
  should n w hok := ⟨hok, rfl, rfl, rfl⟩
  want w hok := ⟨hok, rfl, rfl, rfl⟩

theorem tarNext_space (pr : Ckpt → Int × Int) : ∀ (fuel : Nat) (ss : seekM.St) (c : TC Z K V), SeekSt.hasSSC ss = true → c.cur = false →
    SeekSt.hasSSC (tarNext seekM Z (tarOnSave Z pr) fuel ss c).2.1 = true ∧ (tarNext seekM Z (tarOnSave Z pr) fuel ss c).2.2.xw = c.xw := by
  intro fuel
  induction fuel with
  | zero => intro ss c h _; exact ⟨h, rfl⟩
  | succ fuel ih =>
    intro ss c h hcur
    unfold tarNext
    split
    · exact ⟨h, rfl⟩
    · exact ⟨h, rfl⟩
    · exact ⟨h, rfl⟩
    · rename_i n _
      obtain ⟨a, b, d⟩ := seekRead_save (tarOnSave (K := K) (V := V) Z pr) n ss c h
      have hc : (Seek.read (tarOnSave Z pr) n ss c).2.2 = c := by
        have hn : ∀ sck, (tarOnSave Z pr sck c).1 = c := by intro sck; unfold tarOnSave; rw [hcur]; rfl
        rcases d with ⟨_, _, d⟩ | ⟨_, d⟩ | d
        · exact d
        · exact d
        · rw [d]; split
          · exact hn _
          · rfl
      generalize hR : Seek.read (tarOnSave Z pr) n ss c = R at *
      have hR' : seekM.read (tarOnSave Z pr) n ss c = R := hR
      rw [hR']
      obtain ⟨⟨bs, e⟩, ss', c'⟩ := R
      simp only at b hc ⊢
      subst hc
      have key := ih ss' { c' with rd := Z.feed bs c'.rd, roff := c'.roff + bs.length } b hcur
      cases e with
      | none => exact key
      | some x =>
        simp only
        split
        · split
          · exact key
          · split <;> exact ⟨b, rfl⟩
        · exact ⟨b, rfl⟩

theorem tarFile_space (hT : AsksWithin V u0 T) (pr : Ckpt → Int × Int) (hsv : ∀ st, Z.save st ≠ none) (F : Nat) (e : Entry) (ss : seekM.St) (c : TC Z K V)
    (hssc : SeekSt.hasSSC ss = true) (hcur : c.cur = true) (h : SpaceOk V u0 T c.xw) :
    SeekSt.hasSSC (tarFile seekM Z pr F e ss c).2.1 = true ∧ SpaceOk V u0 T (tarFile seekM Z pr F e ss c).2.2.xw := by
  have hl := copyLoop_spaced hT (tarIO_spaced (K := K) (V := V) (u0 := u0) (T := T) pr hsv) F 0
    (ss, { c with xw := { (({ c.xw with sink := (K.getWriter e c.xw.sink).2 }).say (.openW e (K.getWriter e c.xw.sink).1)) with stop := false } })
    ⟨hssc, hcur⟩ (h.open _ _ _ _)
  have hcd : copyDo (tarIO (K := K) (V := V) seekM Z pr) F
      (ss, { c with xw := ({ c.xw with sink := (K.getWriter e c.xw.sink).2 }).say (.openW e (K.getWriter e c.xw.sink).1) }) =
    copyLoop (tarIO (K := K) (V := V) seekM Z pr) F 0
      (ss, { c with xw := { (({ c.xw with sink := (K.getWriter e c.xw.sink).2 }).say (.openW e (K.getWriter e c.xw.sink).1)) with stop := false } }) := rfl
  rw [← hcd] at hl
  unfold tarFile
  dsimp only at hl ⊢
  split
  · exact ⟨hssc, (h.open _ _ _ True).1, h.2⟩
  · generalize copyDo (tarIO (K := K) (V := V) seekM Z pr) F _ = R at *
    obtain ⟨re, ⟨ss', c'⟩, ev⟩ := R
    cases re with
    | some x => exact ⟨hl.1.1, hl.2⟩
    | none => exact ⟨hl.1.1, hl.2.1.other (Or.inl (unsavedHere_snoc _ (.progress _))), hl.2.2⟩

theorem tarExtract_space (hT : AsksWithin V u0 T) (pr : Ckpt → Int × Int) (hsv : ∀ st, Z.save st ≠ none) (F : Nat) (e : Entry) (ss : SeekSt) (c : TC Z K V)
    (hssc : ss.hasSSC = true) (h : SpaceOk V u0 T c.xw) :
    SeekSt.hasSSC (tarExtract seekM Z pr F e ss c).2.1 = true ∧ SpaceOk V u0 T (tarExtract seekM Z pr F e ss c).2.2.xw := by
  unfold tarExtract
  dsimp only
  have key : ∀ r : Option Err × SeekSt × TC Z K V, (r.2.1.hasSSC = true ∧ SpaceOk V u0 T r.2.2.xw) →
      (SeekSt.hasSSC (match r.1 with | some x => (some x, r.2) | none => (none, r.2.1,
        { r.2.2 with xw := { r.2.2.xw with ck := { r.2.2.xw.ck with entry := none, srcCk := none, data := none } } }) : Option Err × SeekSt × TC Z K V).2.1 = true ∧
      SpaceOk V u0 T (match r.1 with | some x => (some x, r.2) | none => (none, r.2.1,
        { r.2.2 with xw := { r.2.2.xw with ck := { r.2.2.xw.ck with entry := none, srcCk := none, data := none } } }) : Option Err × SeekSt × TC Z K V).2.2.xw) := by
    intro r hr
    split <;> exact hr
  refine key _ ?_
  split
  · exact ⟨hssc, h.1.other (Or.inl (unsavedHere_snoc _ (.mkdir _ _))), h.2⟩
  · exact ⟨hssc, h.1.other (Or.inl (unsavedHere_snoc _ (.symlink _ _ _))), h.2⟩
  · exact tarFile_space hT pr hsv F e ss _ hssc rfl h

theorem tarStep_space (hT : AsksWithin V u0 T) (pr : Ckpt → Int × Int) (hsv : ∀ st, Z.save st ≠ none) (F : Nat) (idx : Int) (ss : SeekSt) (c : TC Z K V)
    (hssc : ss.hasSSC = true) (h : SpaceOk V u0 T c.xw) :
    SeekSt.hasSSC (tarStep seekM Z pr F idx ss c).2.1 = true ∧ SpaceOk V u0 T (tarStep seekM Z pr F idx ss c).2.2.xw := by
  unfold tarStep
  dsimp only
  split
  · exact tarExtract_space hT pr hsv F _ ss _ hssc h
  · obtain ⟨a, b⟩ := tarNext_space (K := K) (V := V) pr F ss { c with cur := false, xw := { c.xw with ck := { c.xw.ck with entryIndex := idx } } } hssc rfl
    generalize tarNext seekM Z (tarOnSave Z pr) F ss { c with cur := false, xw := { c.xw with ck := { c.xw.ck with entryIndex := idx } } } = N at *
    obtain ⟨r, ss', c'⟩ := N
    simp only at a b ⊢
    have h' : SpaceOk V u0 T c'.xw := by rw [b]; exact h
    cases r with
    | error x => exact ⟨a, h'⟩
    | ok hd =>
      simp only
      split
      · exact ⟨a, h'⟩
      · exact tarExtract_space hT pr hsv F _ ss' _ a h'

theorem tarLoop_space (hT : AsksWithin V u0 T) (pr : Ckpt → Int × Int) (hsv : ∀ st, Z.save st ≠ none) (F : Nat) : ∀ (fuel : Nat) (idx : Int) (ss : seekM.St) (c : TC Z K V),
    SeekSt.hasSSC ss = true → SpaceOk V u0 T c.xw → SpaceOk V u0 T (tarLoop seekM Z pr F fuel idx ss c).2.2.xw
  | 0, _, _, _, _, h => h
  | fuel + 1, idx, ss, c, hssc, h => by
    unfold tarLoop
    split
    · exact h
    · obtain ⟨a, b⟩ := tarStep_space hT pr hsv F idx ss c hssc h
      dsimp only
      split
      · exact b
      · exact b
      · exact tarLoop_space hT pr hsv F fuel (idx + 1) _ _ a b

theorem tarResume_space (pr : Ckpt → Int × Int) (hsv : ∀ st, Z.save st ≠ none) (F : Nat) (ck : Option ECkpt) (src : SeekSt) (k : K.St) (u : V.St)
    (hT : AsksWithin V u T) : Spread (T + 32768) (tarResume seekM Z pr F K V ck src k u).2.2.log := by
  have hw : ∀ c, SpaceOk V u T (tarWorld (K := K) (V := V) c k u) := fun c => ⟨.nil, .start⟩
  have hb : SpaceOk V u T (tarBegin (K := K) seekM Z F ck src k u).2.2.xw := by
    have hf : SpaceOk V u T (tarFresh (K := K) seekM Z src k u).2.2.xw := by
      unfold tarFresh; dsimp only; split <;> exact hw _
    unfold tarBegin
    split
    · split
      · unfold tarAgain
        dsimp only
        split
        · exact hw _
        · split
          · exact hw _
          · split <;> exact hw _
      · exact hf
    · exact hf
  unfold tarResume
  dsimp only
  generalize tarBegin (K := K) seekM Z F ck src k u = b at *
  split
  · exact hb.1
  · have := tarLoop_space hT pr hsv F F b.2.2.xw.ck.entryIndex (seekM.setSSC true b.2.1) b.2.2 rfl hb
    split <;> exact this.1

end
end Savior
