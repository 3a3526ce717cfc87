import Verif.Spec.Retry
import Verif.Props.TarFaults
/-!
# Retrying with the checkpoint object of the run before: tar (C84)
-/

namespace Savior
open FSink

section
variable {Y : List Byte} {clean : Bool} {Ck : Ckpt → Nat → Prop} {F : Nat} {T : TarFmt}

/-- A checkpoint object without tar state is as good as none. -/
theorem tarRun_noData (X : TarSrc Y clean Ck F) (pr : Ckpt → Int × Int) (K : SinkM) (V : SaveCons) (c : ECkpt) (k : K.St) (u : V.St) (h : c.data = none) :
    tarRun X T pr K V (some c) k u = tarRun X T pr K V none k u := by
  unfold tarRun tarResume
  have : tarBegin (K := K) (V := V) X.S T F (some c) X.src k u = tarBegin X.S T F none X.src k u := by
    unfold tarBegin
    simp only [h]
  rw [this]

theorem tarNext_ck {S : SourceM} {K : SinkM} {V : SaveCons} (hS : S.Conduit) (pr : Ckpt → Int × Int) : ∀ (fuel : Nat) (s : S.St) (c : TC T K V), c.cur = false →
    (tarNext S T (tarOnSave T pr) fuel s c).2.2.xw = c.xw := by
  intro fuel
  induction fuel with
  | zero => intro s c _; rfl
  | succ fuel ih =>
    intro s c hc
    have hr : ∀ n, (S.read (tarOnSave T pr) n s c).2.2 = c := by
      intro n
      rcases hS _ (tarOnSave T pr) n s c with h | ⟨ck, h⟩
      · exact h
      · rw [h]
        unfold tarOnSave
        simp [hc]
    unfold tarNext
    split
    · rfl
    · rfl
    · rfl
    · rename_i n _
      simp only
      have h := hr n
      generalize S.read (tarOnSave T pr) n s c = r at h ⊢
      obtain ⟨⟨bs, e⟩, s', c'⟩ := r
      simp only at h ⊢
      subst h
      split
      · exact ih _ _ hc
      · split
        · split
          · exact ih _ _ hc
          · split <;> rfl
        · rfl

/-- A member that has been extracted leaves no tar state in the checkpoint object. -/
theorem tarExtract_ck {S : SourceM} {K : SinkM} {V : SaveCons} (pr : Ckpt → Int × Int) (F : Nat) (e : Entry) (s : S.St) (c : TC T K V)
    (h : (tarExtract S T pr F e s c).1 = none) : (tarExtract S T pr F e s c).2.2.xw.ck.data = none := by
  unfold tarExtract at h ⊢
  simp only at h ⊢
  split
  · rename_i x hx
    rw [hx] at h; cases h
  · rfl

theorem tarLoop_ck {S : SourceM} {K : SinkM} {V : SaveCons} (hS : S.Conduit) (pr : Ckpt → Int × Int) (F : Nat) : ∀ (fuel : Nat) (idx : Int) (s : S.St) (c : TC T K V),
    (c.xw.ck.entry = none ∨ c.xw.stopErr = true → c.xw.ck.data = none) → (tarLoop S T pr F fuel idx s c).1 = none →
    (tarLoop S T pr F fuel idx s c).2.2.xw.ck.data = none := by
  intro fuel
  induction fuel with
  | zero => intro idx s c _ h; cases h
  | succ fuel ih =>
    intro idx s c hc h
    unfold tarLoop at h ⊢
    split
    · rename_i hs
      exact hc (Or.inr hs)
    rename_i hs
    rw [if_neg hs] at h
    simp only at h ⊢
    have hstep : ∀ b, (tarStep S T pr F idx s c).1 = .ok b → (tarStep S T pr F idx s c).2.2.xw.ck.data = none := by
      intro b hb
      unfold tarStep at hb ⊢
      simp only at hb ⊢
      cases he : c.xw.ck.entry with
      | some e =>
        simp only [he] at hb ⊢
        refine tarExtract_ck pr F e s _ ?_
        split at hb
        · cases hb
        · assumption
      | none =>
        simp only [he] at hb ⊢
        generalize hN : tarNext S T (tarOnSave T pr) F s _ = N at hb ⊢
        have hn : N.2.2.xw.ck.data = c.xw.ck.data := by rw [← hN, tarNext_ck hS pr F s _ rfl]
        clear hN
        obtain ⟨r, s', c'⟩ := N
        simp only at hn hb ⊢
        cases r with
        | error x =>
          rw [hn]
          exact hc (Or.inl he)
        | ok h' =>
          by_cases ht : h'.typ = .other
          · simp only [if_pos ht] at hb ⊢
            rw [hn]
            exact hc (Or.inl he)
          · simp only [if_neg ht] at hb ⊢
            refine tarExtract_ck pr F _ s' _ ?_
            split at hb
            · cases hb
            · assumption
    generalize tarStep S T pr F idx s c = r at h hstep ⊢
    obtain ⟨r, s', c'⟩ := r
    cases r with
    | error x => cases h
    | ok b =>
      cases b with
      | true => exact hstep _ rfl
      | false => exact ih _ _ _ (fun _ => hstep _ rfl) h

/-- After a run that succeeded or was stopped the checkpoint object has no tar state. -/
theorem tarRun_data (X : TarSrc Y clean Ck F) (pr : Ckpt → Int × Int) (K : SinkM) (V : SaveCons) (ck : Option ECkpt)
    (hck : ∀ c, ck = some c → c.entry ≠ none) (k : K.St) (u : V.St)
    (h : (tarRun X T pr K V ck k u).1 = .error .stop ∨ ∃ res, (tarRun X T pr K V ck k u).1 = .ok res) : (tarRun X T pr K V ck k u).2.2.ck.data = none := by
  unfold tarRun tarResume at h ⊢
  simp only at h ⊢
  have hb : (tarBegin (K := K) (V := V) X.S T F ck X.src k u).1 ≠ some .stop ∧ ((tarBegin (K := K) (V := V) X.S T F ck X.src k u).2.2.xw.ck.entry = none ∨
      (tarBegin (K := K) (V := V) X.S T F ck X.src k u).2.2.xw.stopErr = true → (tarBegin (K := K) (V := V) X.S T F ck X.src k u).2.2.xw.ck.data = none) := by
    have hf : (tarFresh (K := K) (V := V) X.S T X.src k u).1 ≠ some .stop ∧ (tarFresh (K := K) (V := V) X.S T X.src k u).2.2.xw.ck.data = none := by
      unfold tarFresh
      simp only
      split
      · exact ⟨by simp, rfl⟩
      · exact ⟨by simp, rfl⟩
    unfold tarBegin
    cases ck with
    | none => exact ⟨hf.1, fun _ => hf.2⟩
    | some c =>
      simp only
      split
      · rename_i res tck _
        have : (tarAgain (K := K) (V := V) X.S T F c res tck X.src k u).1 ≠ some .stop ∧ (tarAgain (K := K) (V := V) X.S T F c res tck X.src k u).2.2.xw.ck = c ∧
            (tarAgain (K := K) (V := V) X.S T F c res tck X.src k u).2.2.xw.stopErr = false := by
          unfold tarAgain
          simp only
          split
          · exact ⟨by simp, rfl, rfl⟩
          · split
            · exact ⟨by simp, rfl, rfl⟩
            · split
              · exact ⟨by simp, rfl, rfl⟩
              · exact ⟨by simp, rfl, rfl⟩
        refine ⟨this.1, fun h => ?_⟩
        rcases h with h | h
        · rw [this.2.1] at h; exact absurd h (hck c rfl)
        · rw [this.2.2] at h; cases h
      · exact ⟨hf.1, fun _ => hf.2⟩
  generalize tarBegin X.S T F ck X.src k u = B at hb h ⊢
  obtain ⟨be, bs, bc⟩ := B
  cases be with
  | some x =>
    simp only at h hb
    rcases h with h | ⟨res, h⟩
    · injection h with h1
      subst h1
      exact absurd rfl hb.1
    · cases h
  | none =>
    simp only at h hb ⊢
    have hl := tarLoop_ck (T := T) X.conduit pr F F bc.xw.ck.entryIndex (X.S.setSSC true bs) bc hb.2
    have hne : ∀ x, (tarLoop X.S T pr F F bc.xw.ck.entryIndex (X.S.setSSC true bs) bc).1 = some x → x ≠ .stop := by
      have : ∀ (fuel : Nat) (idx : Int) (s : X.S.St) (c : TC T K V) x, (tarLoop X.S T pr F fuel idx s c).1 = some x → x ≠ .stop := by
        intro fuel
        induction fuel with
        | zero => intro idx s c x h; cases h; nofun
        | succ fuel ih =>
          intro idx s c x h
          unfold tarLoop at h
          split at h
          · cases h
          · simp only at h
            split at h
            · cases h; nofun
            · cases h
            · exact ih _ _ _ _ h
      exact this _ _ _ _
    generalize tarLoop X.S T pr F F bc.xw.ck.entryIndex (X.S.setSSC true bs) bc = R at hl hne h ⊢
    obtain ⟨re, rs, rc⟩ := R
    cases re with
    | some x =>
      simp only at h
      rcases h with h | ⟨res, h⟩
      · injection h with h1
        exact absurd h1 (hne x rfl)
      · cases h
    | none => exact hl rfl

/-- **C84**, the part that holds: after a run that ended in whatever way, the checkpoint object it worked with can be passed to
`Resume` again if it has no tar state — which is so unless the run failed within a member after a checkpoint in that member
— or is as it was when last handed to the save consumer. When that succeeds every path is as the stream says. -/
theorem C84_tar_retry_partial (hT : T.Law) {all : List (THdr × List Byte)} (hall : TarHas T clean Y all) {K : SinkM} (P : PathLaw K)
    (hfit : P.FitsMembers all) (k0 : K.St) (hk0 : P.Inv k0) (hist : List ECkpt) (k : K.St) (hchain : TarAttempts Y clean Ck F T K k0 hist k)
    (ck : Option ECkpt) (before : List ECkpt) (hck : ChooseCk hist ck before) (X : TarSrc Y clean Ck F) (pr : Ckpt → Int × Int) (V : SaveCons) (u : V.St)
    (k2 : K.St) (hn : K.Next (tarRun X T pr K V ck k u).2.2.sink k2)
    (hobj : (tarRun X T pr K V ck k u).2.2.ck.data = none ∨ (tarRun X T pr K V ck k u).2.2.ck ∈ savedCks (tarRun X T pr K V ck k u).2.2.log)
    (X' : TarSrc Y clean Ck F) (pr' : Ckpt → Int × Int) (V' : SaveCons) (u' : V'.St)
    (res : List Entry) (hok : (tarRun X' T pr' K V' (some (tarRun X T pr K V ck k u).2.2.ck) k2 u').1 = .ok res)
    (p : Str) (n : PNode) (hp : P.shown p = true) (hnode : tarNode all p = some n) :
    P.node (tarRun X' T pr' K V' (some (tarRun X T pr K V ck k u).2.2.ck) k2 u').2.2.sink p = some n := by
  have h2 := TarAttempts.step X pr V u hchain hck hn
  rcases hobj with h | h
  · rw [tarRun_noData X' pr' K V' _ k2 u' h] at hok ⊢
    exact (C61_tar_failures_harmless hT hall P hfit k0 hk0 _ _ h2 none [] .fresh X' pr' V' u' res hok).1 p n hp hnode
  · obtain ⟨a, b, hab⟩ := List.append_of_mem h
    refine (C61_tar_failures_harmless hT hall P hfit k0 hk0 _ _ h2 _ _ (.pick (a := before ++ a) (b := b) ?_) X' pr' V' u' res hok).1 p n hp hnode
    rw [hab, List.append_assoc]

/-- **C84**, when that is so: after a run that succeeded or was stopped — itself started from a checkpoint handed to a save
consumer (these always have an entry), or from nothing. -/
theorem C84_tar_no_state (X : TarSrc Y clean Ck F) (pr : Ckpt → Int × Int) (K : SinkM) (V : SaveCons) (ck : Option ECkpt)
    (hck : ∀ c, ck = some c → c.entry ≠ none) (k : K.St) (u : V.St)
    (h : (tarRun X T pr K V ck k u).1 = .error .stop ∨ ∃ res, (tarRun X T pr K V ck k u).1 = .ok res) : (tarRun X T pr K V ck k u).2.2.ck.data = none :=
  tarRun_data X pr K V ck hck k u h

end

/-- The fifth sink call, the last write of "a", fails with its byte stored. -/
def tarFaultIn : Nat → Option Nat := fun t => if t = 4 then some 1 else none

/-- A run that fails then. -/
def tarObj1 := memTar tarFaultIn none memEmpty []

/-- Its checkpoint object: three bytes written, but the source and the tar reader two bytes into the member. -/
theorem tarObj1_fails : (∃ e, tarObj1.1 = .error e) ∧ tarObj1.2.2.ck =
    ⟨some (.plain 8), 1, some ⟨[97], .file, 0o644, 0, 3, 3, []⟩, (0, 1), some ⟨some [], some ⟨8, [0, 1]⟩⟩⟩ := ⟨⟨_, by rfl⟩, by rfl⟩

theorem tarObj1_retry : TarRetries (plainGeo toyStream).stream true (Seek.CkS (plainGeo toyStream)) 100 (toyTar true) (memSink tarFaultIn) memEmpty
    (some tarObj1.2.2.ck) tarObj1.2.2.sink := by
  have h0 : TarRetries (plainGeo toyStream).stream true (Seek.CkS (plainGeo toyStream)) 100 (toyTar true) (memSink tarFaultIn) memEmpty none memEmpty :=
    .start .refl .fresh
  have h1 := TarRetries.again toyTarSrc (fun _ => (0, 1)) listCons [] h0 (Or.inl (Eq.refl _))
  unfold tarObj1 memTar
  exact h1

/-- **C84 is false**: retrying with the checkpoint object of a failed tar extraction can succeed with a wrong file. Here
the third byte of "a" is written twice. -/
theorem C84_false_tar : ∃ (ck : Option ECkpt) (k : MemSt),
    TarRetries (plainGeo toyStream).stream true (Seek.CkS (plainGeo toyStream)) 100 (toyTar true) (memSink tarFaultIn) memEmpty ck k ∧
    (∃ res, (memTar tarFaultIn ck k []).1 = .ok res) ∧ tarNode toyMembers [97] = some (.file [10, 20, 30]) ∧
    (memTar tarFaultIn ck k []).2.2.sink.nodes [97] = some (.file [10, 20, 30, 30]) :=
  ⟨_, _, tarObj1_retry, ⟨_, by rfl⟩, by rfl, by rfl⟩

/-! ## Non-vacuity -/

/-- The second run of `C61`'s example: stopped at its first save, the object then passed on. -/
def tarObj2 := memTar tarFault (some tarCk1) ((memSink tarFault).reborn tarF1.2.2.sink) [.ok .stop]

theorem tarObj2_stops : tarObj2.1 = .error .stop := by rfl

theorem tarObj3_ok : (memTar tarFault (some tarObj2.2.2.ck) tarObj2.2.2.sink []).1 =
    .ok [⟨[97], .file, 0o644, 0, 3, 3, []⟩, ⟨[98], .file, 0o644, 0, 2, 2, []⟩] := by rfl

theorem tarObj2_data : tarObj2.2.2.ck.data = none := C84_tar_no_state toyTarSrc (fun _ => (0, 1)) (memSink tarFault) listCons (some tarCk1) (by nofun) _ _ (Or.inl tarObj2_stops)

example : (memPath tarFault).node (memTar tarFault (some tarObj2.2.2.ck) tarObj2.2.2.sink []).2.2.sink [98] = some (.file [5, 6]) := by
  obtain ⟨c, hc⟩ := tarF1_fails.2.2.2
  have h := C84_tar_retry_partial (toyTar_law true) toy_has (memPath tarFault) (fun _ _ _ => trivial) memEmpty trivial _ _ tarF1_attempts (some tarCk1) _
    (.pick (a := []) (b := [c]) hc) toyTarSrc (fun _ => (0, 1)) listCons [.ok .stop] tarObj2.2.2.sink (Or.inl rfl) (Or.inl tarObj2_data)
    toyTarSrc (fun _ => (0, 1)) listCons []
  have hok := tarObj3_ok
  unfold tarObj2 memTar at h hok ⊢
  have hn : tarNode toyMembers [98] = some (.file [5, 6]) := by rfl
  exact h _ hok [98] _ rfl hn

end Savior
