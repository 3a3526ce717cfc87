import Verif.TarSaves
import Verif.Conduits
/-!
# Using a source for another tar run (tarextractor/tarextractor.go)

`SetSourceSaveConsumer` (tarextractor.go:113) comes after `DiscardByRead` (tarextractor.go:66). If the source has served an earlier run of
the same extractor, the callback registered then is still in place while bytes are skipped: a closure over that run's variables
(`checkpoint`, `state`, `sr`, `entry`), which calls the extractor's save consumer. `tarResume` (Tar.lean) leaves it out; here it is.
-/

namespace Savior

section
variable {K : SinkM} {V : SaveCons}

/-- The loop over entries and the end of `Resume` (tarextractor.go:107-252). -/
def tarGo (S : SourceM) (T : TarFmt) (pr : Ckpt → Int × Int) (F : Nat) (s : S.St) (c : TC T K V) : Except Err (List Entry) × S.St × TC T K V :=
  let r := tarLoop S T pr F F c.xw.ck.entryIndex (S.setSSC true s) c
  match r.1 with
  | some x => (.error x, r.2)
  | none => (if r.2.2.xw.stopErr then .error .stop else .ok r.2.2.res, r.2)

/-- `tarExtractor.Resume` (tarextractor.go:45-252) on a source nobody used before, with all variables of the run at its end. -/
def tarFirst (S : SourceM) (T : TarFmt) (pr : Ckpt → Int × Int) (F : Nat) (K : SinkM) (V : SaveCons) (ck : Option ECkpt)
    (src : S.St) (k : K.St) (u : V.St) : Except Err (List Entry) × S.St × TC T K V :=
  let b : Option Err × S.St × TC T K V := tarBegin S T F ck src k u
  match b.1 with
  | some x => (.error x, b.2)
  | none => tarGo S T pr F b.2.1 b.2.2

/-- `tarExtractor.Resume` (tarextractor.go:45-252) on a source that still has the callback of an earlier run of the same extractor, whose
variables are `old`. Returns the variables of this run and of the earlier one; the save consumer's state goes from the one to the
other. -/
def tarReuse (S : SourceM) (T : TarFmt) (pr : Ckpt → Int × Int) (F : Nat) (K : SinkM) (V : SaveCons) (old : TC T K V) (ck : Option ECkpt)
    (src : S.St) (k : K.St) : (Except Err (List Entry) × S.St × TC T K V) × TC T K V :=
  match ck with
  | some ⟨sck, idx, e, p, some ⟨some res, some tck⟩⟩ =>
    let q := S.resume sck src
    let c (u : V.St) : TC T K V := ⟨T.start, tck.roff, tarWorld ⟨sck, idx, e, p, some ⟨some res, some tck⟩⟩ k u, res, false⟩
    match q.1 with
    | .error x => ((.error (.wrapped x), q.2, c old.xw.cons), old)
    | .ok offset =>
      let d : Option Err × S.St × TC T K V :=
        if offset < tck.roff then discard S (tarOnSave T pr) F (tck.roff - offset) q.2 old else (none, q.2, old)
      match d.1 with
      | some x => ((.error (.wrapped x), d.2.1, c d.2.2.xw.cons), d.2.2)
      | none =>
        match T.dec tck.blob with
        | none => ((.error (.wrapped .corrupt), d.2.1, c d.2.2.xw.cons), d.2.2)
        | some st => (tarGo S T pr F d.2.1 { c d.2.2.xw.cons with rd := st }, d.2.2)
  | ck => (tarFirst S T pr F K V ck src k old.xw.cons, old)

/-- `tarFirst` is `tarResume`. -/
theorem tarFirst_resume (S : SourceM) (T : TarFmt) (pr : Ckpt → Int × Int) (F : Nat) (K : SinkM) (V : SaveCons) (ck : Option ECkpt) (src : S.St) (k : K.St)
    (u : V.St) : tarResume S T pr F K V ck src k u =
      ((tarFirst S T pr F K V ck src k u).1, (tarFirst S T pr F K V ck src k u).2.1, (tarFirst S T pr F K V ck src k u).2.2.xw) := by
  unfold tarResume tarFirst
  simp only
  generalize tarBegin (K := K) (V := V) S T F ck src k u = b
  obtain ⟨e, s, c⟩ := b
  cases e with
  | some x => rfl
  | none =>
    unfold tarGo
    simp only
    generalize tarLoop S T pr F F c.xw.ck.entryIndex (S.setSSC true s) c = r
    obtain ⟨e, s', c'⟩ := r
    cases e <;> rfl

/-- Reading does not depend on the callback but for the error it returns. -/
def SourceM.Uniform (S : SourceM) : Prop := ∀ (n : Nat) (s : S.St), ∃ (em : Option Ckpt) (f : Option Err → ReadRes × S.St),
  ∀ (C : Type) (cb : Callback C) (c : C), S.read cb n s c = ((f (em.bind fun ck => (cb ck c).2)).1, (f (em.bind fun ck => (cb ck c).2)).2, deliver cb em c)

theorem seek_uniform : seekM.Uniform := by
  intro n s
  have hs : ∃ em : Option Ckpt, ∀ (C : Type) (cb : Callback C) (c : C), Seek.handleSave cb s c = ({ s with wantSave := false }, deliver cb em c) := by
    by_cases hw : s.wantSave = true
    · by_cases hh : s.hasSSC = true
      · exact ⟨some (.plain s.offset), fun C cb c => by simp [Seek.handleSave, hw, hh, deliver]⟩
      · exact ⟨none, fun C cb c => by simp [Seek.handleSave, hw, hh, deliver]⟩
    · refine ⟨none, fun C cb c => ?_⟩
      have : s.wantSave = false := by simpa using hw
      obtain ⟨a, b, c, d, e, f, g⟩ := s
      simp only at this
      subst this
      rfl
  obtain ⟨em, hem⟩ := hs
  by_cases h1 : s.br = none
  · exact ⟨none, fun _ => (([], some (.wrapped .uninit)), s), fun C cb c => by show Seek.read cb n s c = _; simp [Seek.read, h1, deliver]; rfl⟩
  obtain ⟨b0, hb0⟩ := Option.ne_none_iff_exists'.mp h1
  by_cases h2 : n = 0
  · exact ⟨none, fun _ => (([], none), s), fun C cb c => by show Seek.read cb n s c = _; simp [Seek.read, hb0, h2, deliver]; rfl⟩
  by_cases h3 : s.size - s.offset = 0
  · exact ⟨none, fun _ => (([], some .eof), s), fun C cb c => by show Seek.read cb n s c = _; simp [Seek.read, hb0, h2, h3, deliver]; rfl⟩
  by_cases h4 : (n : Int) > s.size - s.offset ∧ s.size - s.offset < 0
  · exact ⟨none, fun _ => (([], some .panic), s), fun C cb c => by
      show Seek.read cb n s c = _
      unfold Seek.read
      simp only [hb0, if_neg h2, if_neg h3, if_pos h4]
      rfl⟩
  refine ⟨em, fun _ => ((b0.read s.rs (if (n : Int) > s.size - s.offset then (s.size - s.offset).toNat else n)).1,
    { s with wantSave := false, br := some (b0.read s.rs (if (n : Int) > s.size - s.offset then (s.size - s.offset).toNat else n)).2.1,
             rs := (b0.read s.rs (if (n : Int) > s.size - s.offset then (s.size - s.offset).toNat else n)).2.2,
             offset := s.offset + (b0.read s.rs (if (n : Int) > s.size - s.offset then (s.size - s.offset).toNat else n)).1.1.length }), fun C cb c => ?_⟩
  show Seek.read cb n s c = _
  unfold Seek.read
  simp only [hb0, if_neg h2, if_neg h3, if_neg h4, hem C cb c]
  rfl

theorem wrap_uniform (cfg : WrapCfg) (D : Decomp) (I : SourceM) (F : Nat) : (wrapM cfg D I F).Uniform := by
  intro n s
  have s' : WrapSt D I := s
  show ∃ (em : Option Ckpt) (f : Option Err → ReadRes × WrapSt D I), ∀ (C : Type) (cb : Callback C) (c : C),
    Wrap.read cfg D I F cb n s c = ((f (em.bind fun ck => (cb ck c).2)).1, (f (em.bind fun ck => (cb ck c).2)).2, deliver cb em c)
  unfold Wrap.read
  simp only
  split
  · exact ⟨none, fun _ => (_, _), fun C cb c => rfl⟩
  split
  · split
    · exact ⟨none, fun _ => (_, _), fun C cb c => rfl⟩
    split
    · exact ⟨none, fun _ => (_, _), fun C cb c => rfl⟩
    split
    · exact ⟨none, fun _ => (_, _), fun C cb c => rfl⟩
    · exact ⟨some _, fun e => ((_, e), _), fun C cb c => rfl⟩
  · exact ⟨none, fun _ => (_, _), fun C cb c => rfl⟩

theorem stack_uniform (F : Nat) (ls : List Layer) : (stackM F ls).Uniform := by
  cases ls with
  | nil => exact seek_uniform
  | cons l ls => exact wrap_uniform l.cfg l.D (stackM F ls) F

/-- A read of a quiet source does not depend on the callback at all. -/
theorem uniform_quiet {S : SourceM} (hU : S.Uniform) {Y : List Byte} {clean : Bool} (L : Lawful S Y clean) {s : S.St} {o n : Nat} (hat : L.At s o) (hn : 0 < n)
    (hq : L.Quiet s) : ∃ (r : ReadRes) (s' : S.St), (∀ (C : Type) (cb : Callback C) (c : C), S.read cb n s c = (r, s', c)) ∧ L.Quiet s' := by
  obtain ⟨em, f, hf⟩ := hU n s
  have hem : em = none := by
    obtain ⟨bs, e, s', em', h1, _, h3, _⟩ := L.read_spec (C := Nat) (fun _ c => (c + 1, none)) n 0 hat hn
    rw [hf Nat _ 0] at h1
    rw [(h3 hq).1] at h1
    have h2 : deliver (fun _ c => (c + 1, (none : Option Err))) em 0 = 0 := congrArg (fun x => x.2.2) h1
    cases em with
    | none => rfl
    | some ck => cases h2
  subst hem
  refine ⟨(f none).1, (f none).2, hf, ?_⟩
  obtain ⟨bs, e, s', em', h1, _, h3, _⟩ := L.read_spec (C := Unit) (fun _ c => (c, none)) n () hat hn
  rw [hf Unit _ ()] at h1
  have h2 : (f (Option.bind none fun ck => ((fun _ c => (c, none) : Callback Unit) ck ()).2)).2 = s' := congrArg (fun x => x.2.1) h1
  rw [show (f none).2 = s' from h2]
  exact (h3 hq).2

/-- Nor does skipping. -/
theorem discard_quiet {S : SourceM} (hU : S.Uniform) {Y : List Byte} {clean : Bool} (L : Lawful S Y clean) {C C' : Type} (cb : Callback C) (cb' : Callback C')
    (c : C) (c' : C') : ∀ (fuel : Nat) (delta : Int) (s : S.St) (o : Nat), L.At s o → L.Quiet s →
    discard S cb fuel delta s c = ((discard S cb' fuel delta s c').1, (discard S cb' fuel delta s c').2.1, c) := by
  intro fuel
  induction fuel with
  | zero =>
    intro delta s o _ _
    unfold discard
    split <;> rfl
  | succ f ih =>
    intro delta s o hat hq
    unfold discard
    by_cases hd : delta > 0
    · rw [if_pos hd, if_pos hd]
      have hn : 0 < (min delta 4096).toNat := by omega
      obtain ⟨r, s', h1, h2⟩ := uniform_quiet hU L hat hn hq
      obtain ⟨bs, e, s2, em, g1, _, _, _, _, _, g7⟩ := L.read_spec cb (min delta 4096).toNat c hat hn
      rw [h1] at g1
      have hr : r = (bs, e) := congrArg (fun x => x.1) g1
      have hs : s' = s2 := congrArg (fun x => x.2.1) g1
      simp only [h1]
      subst hs
      rw [hr]
      cases e with
      | some x => rfl
      | none =>
        simp only
        rcases g7 with ⟨_, hat', _⟩ | ⟨h, _⟩ | ⟨_, _, _, _, h, _⟩ | ⟨_, h, _⟩
        · exact ih _ _ _ hat' h2
        · cases h
        · cases h
        · cases h
    · rw [if_neg hd, if_neg hd]

end
end Savior
