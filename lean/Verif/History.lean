import Verif.Spec.Cursor
/-!
# Running histories on a source model
-/

namespace Savior

/-- The save consumer used for histories: it keeps every checkpoint it is given and answers as the arbitrary function
`answer` says. -/
def logCb (answer : Nat → Option Err) : Callback (List (Ckpt × Option Err)) := fun ck log =>
  (log ++ [(ck, answer log.length)], answer log.length)

/-- Execute one call. -/
def srcStep (S : SourceM) (answer : Nat → Option Err) (op : SrcOp) (s : S.St) (log : List (Ckpt × Option Err)) :
    SrcOut × S.St × List (Ckpt × Option Err) :=
  match op with
  | .resumeNil => let r := S.resume none s; (.resumed r.1, r.2, log)
  | .resumeCk i =>
    match log[i]? with
    | none => (.none, s, log)
    | some ck => let r := S.resume (some ck.1) s; (.resumed r.1, r.2, log)
  | .read n =>
    let r := S.read (logCb answer) (n + 1) s log
    (.data r.1.1 r.1.2 ((r.2.2.drop log.length).map fun x => (x.1.offset, x.2)), r.2.1, r.2.2)
  | .readByte =>
    let r := S.readByte (logCb answer) s log
    (.byte r.1.1 r.1.2 ((r.2.2.drop log.length).map fun x => (x.1.offset, x.2)), r.2.1, r.2.2)
  | .wantSave => (.none, S.wantSave s, log)
  | .setSSC b => (.none, S.setSSC b s, log)

/-- Execute a list of calls, recording what the caller sees. -/
def srcRun (S : SourceM) (answer : Nat → Option Err) : List SrcOp → S.St → List (Ckpt × Option Err) →
    List (SrcOp × SrcOut) × S.St × List (Ckpt × Option Err)
  | [], s, log => ([], s, log)
  | op :: ops, s, log =>
    let r := srcStep S answer op s log
    let q := srcRun S answer ops r.2.1 r.2.2
    ((op, r.1) :: q.1, q.2)

section
variable {S : SourceM} {Y : List Byte} {clean : Bool} (L : Lawful S Y clean)

/-- The specification's parameters for a lawful source. -/
def Lawful.cfg : SpecCfg := ⟨Y, clean, L.nice, L.exact, L.early⟩

/-- How the model's state corresponds to the specification's. -/
def Corr (s : S.St) (log : List (Ckpt × Option Err)) (sp : SpecSt) : Prop :=
  match sp.cur with
  | .dead => True
  | .fresh => L.Good s ∧ sp.cks = log.map (·.1.offset) ∧ ∀ x ∈ log, ∃ o, L.CkFor x.1 o
  | .lost => L.Live s ∧ sp.cks = log.map (·.1.offset) ∧ ∀ x ∈ log, ∃ o, L.CkFor x.1 o
  | .at o => L.At s o ∧ sp.cks = log.map (·.1.offset) ∧ ∀ x ∈ log, ∃ o, L.CkFor x.1 o

theorem corr_good {s : S.St} {log} {sp : SpecSt} (h : Corr L s log sp) (hd : sp.cur ≠ .dead) :
    L.Good s ∧ sp.cks = log.map (·.1.offset) ∧ ∀ x ∈ log, ∃ o, L.CkFor x.1 o := by
  unfold Corr at h
  split at h
  · rename_i hc; exact absurd hc hd
  · exact h
  · exact ⟨L.live_good h.1, h.2⟩
  · exact ⟨L.live_good (L.at_live h.1), h.2⟩

theorem deliver_log (answer : Nat → Option Err) (em : Option Ckpt) (log : List (Ckpt × Option Err)) :
    deliver (logCb answer) em log = log ++ (em.map fun ck => (ck, answer log.length)).toList := by
  cases em <;> simp [deliver, logCb]

/-- What an emission during a call looks like to the caller, and what it does to the log. -/
theorem emission (answer : Nat → Option Err) (em : Option Ckpt) (log : List (Ckpt × Option Err)) (cks : List Int) (o : Nat)
    (hcks : cks = log.map (·.1.offset)) (hlog : ∀ x ∈ log, ∃ o, L.CkFor x.1 o) (h2 : ∀ ck, em = some ck → L.CkFor ck o) :
    ∃ em', (em.map fun ck => (ck, answer log.length)).toList = em' ∧
      ((em'.map fun x => (x.1.offset, x.2)) = [] ∨ (em'.map fun x => (x.1.offset, x.2)) = [((o : Int), none)] ∨
          ∃ x, (em'.map fun x => (x.1.offset, x.2)) = [((o : Int), some x)]) ∧
      (∀ x ∈ log ++ em', ∃ o, L.CkFor x.1 o) ∧
      cks ++ (em'.map fun x => (x.1.offset, x.2)).map (·.1) = (log ++ em').map (·.1.offset) := by
  refine ⟨_, rfl, ?_, ?_, ?_⟩
  · cases em with
    | none => left; rfl
    | some ck =>
      right
      have := L.ck_off (h2 ck rfl)
      simp only [Option.map_some, Option.toList_some, List.map_cons, List.map_nil, this]
      cases answer log.length with
      | none => left; rfl
      | some x => right; exact ⟨x, rfl⟩
  · intro x hx
    rw [List.mem_append] at hx
    rcases hx with hx | hx
    · exact hlog x hx
    · cases em with
      | none => simp at hx
      | some ck =>
        simp at hx
        subst hx
        exact ⟨o, h2 ck rfl⟩
  · rw [hcks]; simp

theorem step_spec (answer : Nat → Option Err) (op : SrcOp) (s : S.St) (log : List (Ckpt × Option Err)) (sp : SpecSt)
    (hB : LawfulByte L ∨ op ≠ .readByte) (h : Corr L s log sp) :
    ∃ sp', SpecStep L.cfg sp op (srcStep S answer op s log).1 sp' ∧
      Corr L (srcStep S answer op s log).2.1 (srcStep S answer op s log).2.2 sp' := by
  obtain ⟨cur, cks⟩ := sp
  by_cases hd : cur = .dead
  · subst hd
    exact ⟨⟨.dead, cks⟩, .dead, trivial⟩
  have hg := corr_good L h hd
  obtain ⟨hgood, hcks, hlog⟩ := hg
  simp only at hcks
  cases op with
  | resumeNil =>
    simp only [srcStep]
    rcases L.resume_nil hgood with ⟨s', h1, h2, h3⟩ | ⟨e, s', h1, h2, h3, h4⟩
    · rw [h1]
      exact ⟨⟨.at 0, cks⟩, .resumeNil hd, h2, hcks, hlog⟩
    · rw [h1]
      exact ⟨⟨.dead, cks⟩, .resumeNilErr hd h2 h3, trivial⟩
  | resumeCk i =>
    simp only [srcStep]
    cases hi : log[i]? with
    | none =>
      refine ⟨⟨cur, cks⟩, .resumeNoCk ?_, h⟩
      rw [hcks]
      simp [hi]
    | some x =>
      simp only []
      obtain ⟨o, ho⟩ := hlog x (List.mem_of_getElem? hi)
      have hk : cks[i]? = some x.1.offset := by rw [hcks]; simp [hi]
      have hoff := L.ck_off ho
      rcases L.resume_ck hgood ho with ⟨o', s', h1, h2, h3, h4, h5⟩ | ⟨e, s', h1, h2, h3, h4⟩
      · rw [h1]
        refine ⟨⟨.at o', cks⟩, .resumeCk hd hk ?_ ?_ (L.at_le h4), h4, hcks, hlog⟩
        · rw [hoff]; omega
        · intro hx; rw [hoff, h3 hx]
      · rw [h1]
        exact ⟨⟨.dead, cks⟩, .resumeCkErr hd hk h2 h3, trivial⟩
  | wantSave =>
    by_cases he : cur = .fresh ∧ ¬ L.early
    · obtain ⟨rfl, he⟩ := he
      exact ⟨⟨.dead, cks⟩, .wantEarly he, trivial⟩
    · have he' : cur = .fresh → L.early := by
        intro hc
        by_cases hx : L.early
        · exact hx
        · exact absurd ⟨hc, hx⟩ he
      refine ⟨⟨cur, cks⟩, .wantSave hd he', ?_⟩
      cases cur with
      | dead => exact absurd rfl hd
      | fresh => exact ⟨L.good_wantSave (he' rfl) h.1, h.2⟩
      | lost => exact ⟨L.live_wantSave h.1, h.2⟩
      | «at» o => exact ⟨L.at_wantSave h.1, h.2⟩
  | setSSC b =>
    refine ⟨⟨cur, cks⟩, .setSSC hd, ?_⟩
    cases cur with
    | dead => exact absurd rfl hd
    | fresh => exact ⟨L.good_setSSC b h.1, h.2⟩
    | lost => exact ⟨L.live_setSSC b h.1, h.2⟩
    | «at» o => exact ⟨L.at_setSSC b h.1, h.2⟩
  | readByte =>
    cases cur with
    | dead => exact absurd rfl hd
    | fresh => exact ⟨⟨.dead, cks⟩, .byteLost (Or.inl rfl), trivial⟩
    | lost => exact ⟨⟨.dead, cks⟩, .byteLost (Or.inr rfl), trivial⟩
    | «at» o =>
      have hB' : LawfulByte L := by
        rcases hB with hB | hB
        · exact hB
        · exact absurd rfl hB
      simp only [srcStep]
      obtain ⟨b, e, s', em, h1, h2, h3, h4, h5⟩ := hB'.readByte_spec (logCb answer) log h.1
      rw [h1]
      simp only [deliver_log, List.drop_left]
      obtain ⟨em', hem', hemo, hlog', hcks'⟩ := emission L answer em log cks o hcks hlog h2
      rw [hem']
      rcases h5 with ⟨a, b, c, _⟩ | ⟨a, b, c, d⟩ | ⟨x, a, b, c, d, f, g⟩
      · subst a
        refine ⟨_, .byte ?_ hemo, c, hcks', hlog'⟩
        rw [← b]; simp [Lawful.cfg]
      · subst a
        exact ⟨_, .byteEof c d hemo, b, hcks', hlog'⟩
      · subst a
        exact ⟨_, .byteErr b c g hemo, h4, hcks', hlog'⟩
  | read n =>
    cases cur with
    | dead => exact absurd rfl hd
    | fresh => exact ⟨⟨.dead, cks⟩, .readLost (Or.inl rfl), trivial⟩
    | lost => exact ⟨⟨.dead, cks⟩, .readLost (Or.inr rfl), trivial⟩
    | «at» o =>
      simp only [srcStep]
      obtain ⟨bs, e, s', em, h1, h2, h3, h4, h5, h6, h7⟩ := L.read_spec (logCb answer) (n + 1) log h.1 (by omega)
      rw [h1]
      simp only [deliver_log, List.drop_left]
      obtain ⟨em', hem', hemo, hlog', hcks'⟩ := emission L answer em log cks o hcks hlog h2
      rw [hem']
      have hle := L.at_le h.1
      have hol : o + bs.length ≤ Y.length := by
        have := congrArg List.length h5
        rw [List.length_take, List.length_drop] at this
        omega
      rcases h7 with ⟨a, b, _⟩ | ⟨a, b, c, d, _⟩ | ⟨ck, x, a, b, c, d, f⟩ | ⟨x, a, b, c, d, f, g⟩
      · subst a
        exact ⟨_, .data h4 h5 hol hemo, b, hcks', hlog'⟩
      · subst a
        refine ⟨_, .eof h4 ?_ c d hemo, ?_, hcks', hlog'⟩
        · rw [h5]
          apply List.take_of_length_le
          rw [List.length_drop]; omega
        · show L.At s' Y.length
          rw [← c]; exact b
      · subst a c d
        have hoff := L.ck_off (h2 ck rfl)
        have hans : answer log.length = some x := by simpa [logCb] using b
        rw [← hem'] at hlog' hcks' ⊢
        simp only [Option.map_some, Option.toList_some, List.map_cons, List.map_nil, hoff, hans] at hlog' hcks' ⊢
        exact ⟨_, .saveErr, f, hcks', hlog'⟩
      · subst a
        exact ⟨_, .error h4 h5 b c (fun hn => ⟨(g hn).1, (g hn).2.1⟩) hemo, h6, hcks', hlog'⟩

/-- **Every history of a lawful source is a history of a resumable cursor.** -/
theorem run_spec (answer : Nat → Option Err) : ∀ (ops : List SrcOp) (s : S.St) (log : List (Ckpt × Option Err)) (sp : SpecSt),
    (LawfulByte L ∨ SrcOp.readByte ∉ ops) → Corr L s log sp →
    ∃ sp', SpecRun L.cfg sp (srcRun S answer ops s log).1 sp' ∧
      Corr L (srcRun S answer ops s log).2.1 (srcRun S answer ops s log).2.2 sp' := by
  intro ops
  induction ops with
  | nil => intro s log sp _ h; exact ⟨sp, .nil, h⟩
  | cons op ops ih =>
    intro s log sp hB h
    have hB1 : LawfulByte L ∨ op ≠ .readByte := hB.imp id fun hn hc => hn (by simp [hc])
    have hB2 : LawfulByte L ∨ SrcOp.readByte ∉ ops := hB.imp id fun hn hc => hn (by simp [hc])
    obtain ⟨sp1, h1, h2⟩ := step_spec L answer op s log sp hB1 h
    obtain ⟨sp2, h3, h4⟩ := ih _ _ sp1 hB2 h2
    exact ⟨sp2, .cons h1 h3, h4⟩

end

end Savior
