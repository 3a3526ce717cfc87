import Verif.ZipPower
import Verif.Props.ZipFaults
/-!
# Properties of the zip extractor: power loss (C66)
-/

namespace Savior

/-- **C66.** Any number of extractions (ended in whatever way) and power losses, in any order, each extraction resumed from
any checkpoint handed to a save consumer before. A run that then succeeds leaves right every member from the lowest index
any run started with since power was last lost: in particular the member the checkpoint is in the middle of, whose first
part was written before the loss. Missing for the full claim (every member is right): members before the checkpoint's, which
are complete but were never synced. See `C66_false_earlier`. -/
theorem C66_power_loss_partial {A : Archive} {D : Decomp} {F : Nat} (hwf : ZipWF A D F) {K : SinkM} (P : PathLaw K) (hfit : P.FitsAll A) (k0 : K.St) (hk0 : P.Inv k0)
    (hist : List ECkpt) (lo : Nat) (d : Durable) (k : K.St) (hchain : ZipPower A D F K P k0 hist lo d k)
    (ck : Option ECkpt) (before : List ECkpt) (hck : ChooseCk hist ck before)
    (env : ZEnv) (hh : env.Honest A) (V : SaveCons) (u : V.St)
    (res : List Entry) (hok : (zipResume A env D F K V ck k u).1 = .ok res)
    (h : Nat) (z : ZFile) (hz : A.files[h]? = some z) (hlo : min lo (startIndex ck) ≤ h) (hs : P.shown z.name = true)
    (hlast : ∀ h' z', h < h' → A.files[h']? = some z' → z'.name ≠ z.name) :
    P.node (zipResume A env D F K V ck k u).2.sink z.name = some (zipNodeOf A D z) := by
  refine ((zipResume_power hwf env hh hfit hist before lo d ck k u (zipPower_ok hwf hfit hk0 hchain) hck).2.2.1 res hok).1 h z hlo ?_ hz hs ?_
  · exact (List.getElem?_eq_some_iff.1 hz).1
  · intro h' z1 z' hlt h1 h2
    rw [Option.some.inj (h1.symm.trans hz)]
    exact hlast h' z' hlt h2

/-- **C66**, in particular: after any number of power losses, starting over from nothing gets every path right. -/
theorem C66_start_over {A : Archive} {D : Decomp} {F : Nat} (hwf : ZipWF A D F) {K : SinkM} (P : PathLaw K) (hfit : P.FitsAll A) (k0 : K.St) (hk0 : P.Inv k0)
    (hist : List ECkpt) (lo : Nat) (d : Durable) (k : K.St) (hchain : ZipPower A D F K P k0 hist lo d k)
    (env : ZEnv) (hh : env.Honest A) (V : SaveCons) (u : V.St)
    (res : List Entry) (hok : (zipResume A env D F K V none k u).1 = .ok res) (p : Str) (hp : P.shown p = true) (n : PNode) (hn : zipNode A D p = some n) :
    P.node (zipResume A env D F K V none k u).2.sink p = some n := by
  have h := (zipResume_power hwf env hh hfit hist [] lo d none k u (zipPower_ok hwf hfit hk0 hchain) .fresh).2.2.1 res hok
  rw [show min lo (startIndex none) = 0 from Nat.min_zero lo] at h
  exact holdsTo_zipNode h p n hp hn

/-! ## Non-vacuity, and why not every member -/

/-- The toy archive extracted, stopped in the middle of `b`, the fourth member. -/
def toyP := toyRun noFaults none memEmpty [.ok .cont, .ok .cont, .ok .stop]

theorem toyP_stops : toyP.1 = .error .stop := by rfl

/-- The last checkpoint saved. -/
def toyPck : ECkpt := (lastSave toyP.2.log).getD toyCk1

/-- What is on stable storage then: the parts of `a` and `b` there were when each last was saved. -/
def toyPd : Durable := Durable.none.run toyP.2.log

theorem toyPd_safe : toyPd.safe (cs ['a']) = [1, 2] ∧ toyPd.safe (cs ['b']) = [11, 21, 31] ∧ toyPd.safe (cs ['d', '/']) = [] ∧ toyPd.safe (cs ['l']) = [] ∧ toyPd.safe (cs ['c']) = [] :=
  ⟨by rfl, by rfl, by rfl, by rfl, by rfl⟩

/-- Power is lost: all that is left is what was synced of `a` and `b`, with garbage behind. -/
def toyPLost : MemSt :=
  ⟨fun p => if p = cs ['b'] then some (.file [11, 21, 31, 99, 98]) else if p = cs ['a'] then some (.file [1, 2, 55]) else none, none, 0⟩

theorem toyP_loses : Loses (memPath noFaults) toyArchive toyPd toyPLost := by
  obtain ⟨ha, hb, hd, hl, hc⟩ := toyPd_safe
  refine ⟨trivial, fun z hz _ hne => ?_⟩
  have : z.name = cs ['d', '/'] ∨ z.name = cs ['a'] ∨ z.name = cs ['l'] ∨ z.name = cs ['b'] ∨ z.name = cs ['c'] := by
    simp only [toyArchive, List.mem_cons, List.not_mem_nil, or_false] at hz
    rcases hz with rfl | rfl | rfl | rfl | rfl <;> simp
  rcases this with h | h | h | h | h <;> rw [h] at hne ⊢
  · exact absurd hd hne
  · exact ⟨[1, 2, 55], rfl, by rw [ha]; decide⟩
  · exact absurd hl hne
  · exact ⟨[11, 21, 31, 99, 98], rfl, by rw [hb]; decide⟩
  · exact absurd hc hne

theorem toyP_cks : ∃ a b, savedCks toyP.2.log = [a, b, toyPck] := ⟨_, _, by rfl⟩

theorem toy_power_run {A : Archive} {D : Decomp} {F : Nat} {K : SinkM} (P : PathLaw K) (k : K.St) (env : ZEnv) (hh : env.Honest A) (V : SaveCons) (u : V.St) :
    ZipPower A D F K P k ([] ++ savedCks (zipResume A env D F K V none k u).2.log) (min 0 (startIndex none))
      (Durable.none.run (zipResume A env D F K V none k u).2.log) (zipResume A env D F K V none k u).2.sink :=
  ZipPower.run env V u hh .refl .fresh (Or.inl rfl)

theorem toyP_run : ZipPower toyArchive (toy false false) 100 (memSink noFaults) (memPath noFaults) memEmpty ([] ++ savedCks toyP.2.log) (min 0 (startIndex none))
    toyPd toyP.2.sink := by
  have h := toy_power_run (A := toyArchive) (D := toy false false) (F := 100) (memPath noFaults) memEmpty toyEnv toy_honest listCons [.ok .cont, .ok .cont, .ok .stop]
  unfold toyPd toyP toyRun
  exact h

theorem toyP_power : ZipPower toyArchive (toy false false) 100 (memSink noFaults) (memPath noFaults) memEmpty ([] ++ savedCks toyP.2.log) toyArchive.files.length
    ⟨none, toyPd.safe, toyPd.safe⟩ toyPLost := .loss toyP_run toyP_loses

/-- The run after the loss, from the checkpoint within `b`. -/
def toyP2 := toyRun noFaults (some toyPck) toyPLost []

theorem toyP2_ok : toyP2.1 = .ok (toyArchive.files.map zipFileEntry) := by rfl

/-- `b`, whose first part is from before the loss, is right. -/
example : (memPath noFaults).node toyP2.2.sink (cs ['b']) = some (.file [11, 21, 31]) := by
  obtain ⟨a, b, h⟩ := toyP_cks
  exact C66_power_loss_partial toy_wf (memPath noFaults) (memPath_fits noFaults toyArchive) memEmpty trivial _ _ _ _ toyP_power (some toyPck) _
    (.pick (a := [a, b]) (b := []) h) toyEnv toy_honest listCons [] _ toyP2_ok 3 _ rfl (by decide +kernel) rfl
    (by
      intro h' z' hlt hz'
      match h', hlt, hz' with
      | 4, _, hz' => simp [toyArchive] at hz'; subst hz'; decide
      | n + 5, _, hz' => simp [toyArchive] at hz')

/-- **C66**, why "from the lowest index": a member completed before the checkpoint need not survive the power loss, for it
was never synced after its last byte was written (and folders and links never are). Resuming from the checkpoint succeeds,
reports every member, and leaves that file damaged, the folder and the link missing. -/
theorem C66_false_earlier :
    ¬ ∀ (A : Archive) (D : Decomp) (F : Nat) (_ : ZipWF A D F) (K : SinkM) (P : PathLaw K) (_ : P.FitsAll A) (k0 : K.St) (_ : P.Inv k0)
      (hist : List ECkpt) (lo : Nat) (d : Durable) (k : K.St) (_ : ZipPower A D F K P k0 hist lo d k) (ck : Option ECkpt) (before : List ECkpt) (_ : ChooseCk hist ck before)
      (env : ZEnv) (_ : env.Honest A) (V : SaveCons) (u : V.St) (res : List Entry) (_ : (zipResume A env D F K V ck k u).1 = .ok res)
      (p : Str) (_ : P.shown p = true) (n : PNode) (_ : zipNode A D p = some n),
      P.node (zipResume A env D F K V ck k u).2.sink p = some n := by
  intro hall
  obtain ⟨a, b, h⟩ := toyP_cks
  have h1 := hall toyArchive (toy false false) 100 toy_wf (memSink noFaults) (memPath noFaults) (memPath_fits noFaults toyArchive) memEmpty trivial _ _ _ _ toyP_power (some toyPck) _
    (.pick (a := [a, b]) (b := []) h) toyEnv toy_honest listCons [] _ toyP2_ok
  have h2 : toyP2.2.sink.nodes (cs ['a']) = some (.file [1, 2, 3]) := h1 (cs ['a']) rfl _ (by decide +kernel)
  have h3 : toyP2.2.sink.nodes (cs ['a']) = some (.file [1, 2, 55]) := by rfl
  rw [h2] at h3
  revert h3
  decide

/-- The same run leaves the folder and the link missing. -/
theorem C66_false_missing : toyP2.1 = .ok (toyArchive.files.map zipFileEntry) ∧ (memPath noFaults).node toyP2.2.sink (cs ['d', '/']) = none ∧
    (memPath noFaults).node toyP2.2.sink (cs ['l']) = none := ⟨by rfl, by rfl, by rfl⟩

/-- Starting over repairs everything. -/
def toyP3 := toyRun noFaults none toyPLost []

theorem toyP3_ok : toyP3.1 = .ok (toyArchive.files.map zipFileEntry) := by rfl

example : (memPath noFaults).node toyP3.2.sink (cs ['a']) = some (.file [1, 2, 3]) :=
  C66_start_over toy_wf (memPath noFaults) (memPath_fits noFaults toyArchive) memEmpty trivial _ _ _ _ toyP_power toyEnv toy_honest listCons [] _ toyP3_ok (cs ['a']) rfl _ (by decide +kernel)

end Savior
