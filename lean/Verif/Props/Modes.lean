import Verif.ModeChains
import Verif.Props.TarFaults
/-!
# The permissions of extracted files (C74, C75)
-/

namespace Savior
open FSink

/-! ## Any sequence of calls -/

/-- **C74.** Whatever is done with a `FolderSink`, whatever fails: the permission bits of any file on the disk are what
they were, or what some entry passed to `Preallocate` or `GetWriter` asks for (read and write for everybody added), with or without the
umask's bits. -/
theorem C74_origin (cfg : FCfg) (ops : List FOp) (s : FSink) (L : Path) (m : Nat) (h : (runOps cfg ops s).os.fs.permAt L = some m) :
    s.os.fs.permAt L = some m ∨
    ∃ e, (FOp.prealloc e ∈ ops ∨ FOp.getWriter e ∈ ops) ∧ (m = wantPerm e.mode ∨ m = without (wantPerm e.mode) cfg.umask) := by
  rcases ops_origin cfg ops s L m h with g | ⟨op, ho, e, he, g⟩
  · exact Or.inl g
  · refine Or.inr ⟨e, ?_, by rw [← fileMode_want]; exact g⟩
    cases op <;> simp [asked] at he
    · subst he; exact Or.inl ho
    · subst he; exact Or.inr ho

/-- **C74**, in bits: a bit of a file's permissions that was not there before is read or write, or asked for by an entry (the special bits by the
bits Go's `os.FileMode` has for them); and read and write are given to everybody the umask does not exclude. -/
theorem C74_bits (cfg : FCfg) (ops : List FOp) (s : FSink) (L : Path) (m : Nat) (h : (runOps cfg ops s).os.fs.permAt L = some m) (hnew : s.os.fs.permAt L ≠ some m) :
    (∀ b, m.testBit b = true → (b < 9 ∧ (0o666 : Nat).testBit b = true) ∨
      ∃ e, (FOp.prealloc e ∈ ops ∨ FOp.getWriter e ∈ ops) ∧
        ((b < 9 ∧ e.mode.testBit b = true) ∨ (b = 11 ∧ e.mode.testBit 23 = true) ∨ (b = 10 ∧ e.mode.testBit 22 = true) ∨ (b = 9 ∧ e.mode.testBit 20 = true))) ∧
    (∀ b, (0o666 : Nat).testBit b = true → cfg.umask.testBit b = false → m.testBit b = true) := by
  rcases C74_origin cfg ops s L m h with g | ⟨e, he, g⟩
  · exact absurd g hnew
  have hin : ∀ b, m.testBit b = true → (wantPerm e.mode).testBit b = true := by
    intro b hb
    rcases g with rfl | rfl
    · exact hb
    · rw [without_bit] at hb
      cases hw : (wantPerm e.mode).testBit b with
      | true => rfl
      | false => rw [hw] at hb; cases hb
  refine ⟨fun b hb => ?_, fun b hb hu => ?_⟩
  · have := hin b hb
    obtain ⟨s1, s2, s3⟩ := wantPerm_special e.mode
    by_cases h9 : b < 9
    · rw [wantPerm_low _ h9] at this
      cases h6 : (0o666 : Nat).testBit b with
      | true => exact Or.inl ⟨h9, rfl⟩
      | false => rw [h6, Bool.or_false] at this; exact Or.inr ⟨e, he, Or.inl ⟨h9, this⟩⟩
    · right
      refine ⟨e, he, Or.inr ?_⟩
      by_cases h12 : b < 12
      · obtain rfl | rfl | rfl : b = 9 ∨ b = 10 ∨ b = 11 := by omega
        · exact Or.inr (Or.inr ⟨rfl, by rw [← s3]; exact this⟩)
        · exact Or.inr (Or.inl ⟨rfl, by rw [← s2]; exact this⟩)
        · exact Or.inl ⟨rfl, by rw [← s1]; exact this⟩
      · have hz := Nat.testBit_lt_two_pow (Nat.lt_of_lt_of_le (wantPerm_lt e.mode) (Nat.pow_le_pow_right (by decide) (Nat.le_of_not_lt h12)))
        rw [hz] at this; cases this
  · have h9 : b < 9 := by
      rcases Nat.lt_or_ge b 9 with h9 | h9
      · exact h9
      · have := Nat.testBit_lt_two_pow (Nat.lt_of_lt_of_le (by decide : 0o666 < 2 ^ 9) (Nat.pow_le_pow_right (by decide) h9))
        rw [this] at hb; cases hb
    have hw : (wantPerm e.mode).testBit b = true := by rw [wantPerm_low _ h9, hb]; simp
    rcases g with rfl | rfl
    · exact hw
    · rw [without_bit, hw, hu]; rfl

/-! ## Zip -/

/-- **C74**, for zip archives: the file at the place of a member has the permissions it had before the first extraction, or
those a member of that name asks for, with or without the umask's bits: at any point after any chain of runs. -/
theorem C74_zip {A : Archive} {D : Decomp} {F : Nat} {cfg : FCfg} {B : Path} (hB : cfg.Base B) (hind : Independent cfg B A.plan) (fs0 : FS) (hfit : DiskFit B A.plan fs0)
    (hist : List ECkpt) (k : FSink) (hchain : ZipAttempts A D F (folderSink cfg) (onFS fs0) hist k)
    (zf : ZFile) (hz : zf ∈ A.files) (hk : (zipFileEntry zf).kind = .file) (hi : shouldIgnore zf.name = false) (hb : B <+: namePlace B zf.name)
    (m : Nat) (hm : k.os.fs.permAt (namePlace B zf.name) = some m) :
    fs0.permAt (namePlace B zf.name) = some m ∨
    ∃ zf' ∈ A.files, zf'.name = zf.name ∧ (zipFileEntry zf').kind = .file ∧ (m = wantPerm zf'.mode ∨ m = without (wantPerm zf'.mode) cfg.umask) :=
  (zipChain_perm hB hind (k0 := onFS fs0) (diskOK_of_fit hfit) hchain).2 zf.name (List.mem_map.2 ⟨zf, hz, by rw [hk]⟩) hi hb m hm

/-- **C74**, for zip archives extracted successfully: all members of that name being files that ask for the same permissions,
the file has exactly those, whatever the umask, what was there before and how often the extraction was interrupted. -/
theorem C74_zip_exact {A : Archive} {D : Decomp} {F : Nat} {cfg : FCfg} {B : Path} (hB : cfg.Base B) (hind : Independent cfg B A.plan) (fs0 : FS) (hfit : DiskFit B A.plan fs0)
    (hist : List ECkpt) (k : FSink) (hchain : ZipAttempts A D F (folderSink cfg) (onFS fs0) hist k) (ck : Option ECkpt) (before : List ECkpt)
    (hck : ChooseCk hist ck before) (env : ZEnv) (V : SaveCons) (u : V.St) (res : List Entry) (hok : (zipResume A env D F (folderSink cfg) V ck k u).1 = .ok res)
    (zf : ZFile) (hz : zf ∈ A.files) (hi : shouldIgnore zf.name = false)
    (hsame : ∀ zf' ∈ A.files, zf'.name = zf.name → (zipFileEntry zf').kind = .file ∧ wantPerm zf'.mode = wantPerm zf.mode) :
    (zipResume A env D F (folderSink cfg) V ck k u).2.sink.os.fs.permAt (namePlace B zf.name) = some (wantPerm zf.mode) := by
  have hp : (zf.name, .file) ∈ A.plan := List.mem_map.2 ⟨zf, hz, by rw [(hsame zf hz rfl).1]⟩
  have hc := zipChain_exact hB hind (k0 := onFS fs0) (diskOK_of_fit hfit) hi hp hsame hchain
  have hm : ∀ c, ck = some c → ModeCk B A zf.name (wantPerm zf.mode) k.os.fs c := by
    intro c h
    subst h
    cases hck with
    | @pick a b _ he => exact hc c (by rw [he]; simp)
  exact (zipRun_exact hB hind env V u ck k (zipChain_perm hB hind (k0 := onFS fs0) (diskOK_of_fit hfit) hchain).1 (chosen_lists hchain hck) hi hp hsame hm).2.2.2 res hok

/-! ## Tar -/

section
variable {T : TarFmt} {Y : List Byte} {clean : Bool} {Ck : Ckpt → Nat → Prop} {F : Nat} {cfg : FCfg} {B : Path} {all : List (THdr × List Byte)}

/-- Where the permissions of the file at a planned place come from: it had them, or a member of that name asks for them. -/
def TarPerm (cfg : FCfg) (all : List (THdr × List Byte)) (B : Path) (fs fs' : FS) : Prop :=
  ∀ p, (p, .file) ∈ tarPlan all → shouldIgnore p = false → B <+: namePlace B p → ∀ m, fs'.permAt (namePlace B p) = some m →
    fs.permAt (namePlace B p) = some m ∨
    ∃ x ∈ all, x.1.name = p ∧ x.1.typ = .reg ∧ (m = wantPerm x.1.mode ∨ m = without (wantPerm x.1.mode) cfg.umask)

theorem tarLists_plan (hall : TarHas T clean Y all) {e : Entry} (h : tarLists T clean Y e) : (e.path, e.kind) ∈ tarPlan all ∧
    (e.kind = .file → ∃ x ∈ all, x.1.name = e.path ∧ x.1.typ = .reg ∧ x.1.mode = e.mode) := by
  obtain ⟨hd, hh, g⟩ := h
  obtain ⟨c, hc⟩ := tarHeader_listed hall hh
  have hk : (tarEntryOf hd).kind = e.kind := by
    have := (tarMember_entry g.typ).kind
    rw [g.kind, this]
  refine ⟨List.mem_map.2 ⟨(hd, c), List.mem_filter.2 ⟨hc, by simpa using g.typ⟩, by rw [g.path, hk]⟩, fun hf => ⟨(hd, c), hc, g.path.symm, ?_, g.mode.symm⟩⟩
  have h1 := g.typ
  have h2 := g.kind
  rw [hf] at h2
  cases ht : hd.typ <;> rw [ht] at h1 h2 <;> first | rfl | exact absurd rfl h1 | simp at h2

theorem tarRun_perm (hT : T.Law) (hall : TarHas T clean Y all) (hB : cfg.Base B) (hind : Independent cfg B (tarPlan all)) (X : TarSrc Y clean Ck F) (pr : Ckpt → Int × Int)
    (V : SaveCons) (u : V.St) (ck : Option ECkpt) (k : (folderSink cfg).St) (hk : DiskOK (PlanPlace cfg B (tarPlan all)) (FSink.os k).fs)
    (hck : ∀ c, ck = some c → TarCkOK T clean Y Ck c) :
    DiskOK (PlanPlace cfg B (tarPlan all)) (FSink.os (tarRun X T pr (folderSink cfg) V ck k u).2.2.sink).fs ∧
    TarPerm cfg all B (FSink.os k).fs (FSink.os (tarRun X T pr (folderSink cfg) V ck k u).2.2.sink).fs := by
  have hc : Calls (folderSink cfg) true k false (tarRun X T pr (folderSink cfg) V ck k u).2.2.log (tarRun X T pr (folderSink cfg) V ck k u).2.2.sink :=
    tarResume_calls X.conduit pr F (folderSink cfg) V ck X.src k u
  have ha := (tarRun_members (tarLists_unmoved T clean Y) (fun h hh ht => ⟨h, hh, tarMember_entry ht⟩) hT X pr (K := folderSink cfg) (V := V) ck k u hck).1
  obtain ⟨d, p⟩ := calls_perm hB hind hc hk (ha.imp fun _ h => (tarLists_plan hall h).1)
  refine ⟨d, fun n h1 h2 h3 m hm => ?_⟩
  rcases p _ ⟨n, h1, h2, h3, rfl⟩ m hm with g | ⟨e, ⟨r, hr⟩, ie, he, hmode⟩
  · exact Or.inl g
  · right
    have hx : e.kind = .file ∧ tarLists T clean Y e := by
      rcases hr with hr | hr
      · exact ha _ hr .file e rfl
      · exact ha _ hr .file e rfl
    have hname := same_name hind h1 (tarLists_plan hall hx.2).1 h2 ie h3 he
    obtain ⟨x, q1, q2, q3, q4⟩ := (tarLists_plan hall hx.2).2 hx.1
    exact ⟨x, q1, by rw [q2, hname], q3, by rw [q4]; exact (by rw [← fileMode_want]; exact hmode)⟩

/-- **C74**, for tar streams: likewise. (Not exactly the permissions asked for: see `C75_false_tar`.) -/
theorem C74_tar (hT : T.Law) (hall : TarHas T clean Y all) (hB : cfg.Base B) (hind : Independent cfg B (tarPlan all)) (fs0 : FS) (hfit : DiskFit B (tarPlan all) fs0)
    (hist : List ECkpt) (k : FSink) (hchain : TarAttempts Y clean Ck F T (folderSink cfg) (onFS fs0) hist k)
    (x : THdr × List Byte) (hx : x ∈ all) (hr : x.1.typ = .reg) (hi : shouldIgnore x.1.name = false) (hb : B <+: namePlace B x.1.name)
    (m : Nat) (hm : k.os.fs.permAt (namePlace B x.1.name) = some m) :
    fs0.permAt (namePlace B x.1.name) = some m ∨
    ∃ y ∈ all, y.1.name = x.1.name ∧ y.1.typ = .reg ∧ (m = wantPerm y.1.mode ∨ m = without (wantPerm y.1.mode) cfg.umask) := by
  have main : ∀ {k0 k : (folderSink cfg).St} {hist : List ECkpt}, DiskOK (PlanPlace cfg B (tarPlan all)) (FSink.os k0).fs →
      TarAttempts Y clean Ck F T (folderSink cfg) k0 hist k →
      DiskOK (PlanPlace cfg B (tarPlan all)) (FSink.os k).fs ∧ TarPerm cfg all B (FSink.os k0).fs (FSink.os k).fs := by
    intro k0 k hist hk h
    have pick : ∀ {hist before : List ECkpt} {ck : Option ECkpt} {k : (folderSink cfg).St}, TarAttempts Y clean Ck F T (folderSink cfg) k0 hist k → ChooseCk hist ck before →
        ∀ c, ck = some c → TarCkOK T clean Y Ck c := by
      intro hist before ck k h hc c he
      subst he
      cases hc with
      | @pick a b _ he => exact tarAttempts_ckOK hT h c (by rw [he]; simp)
    have tr : ∀ {a b c : FS}, TarPerm cfg all B a b → TarPerm cfg all B b c → TarPerm cfg all B a c := by
      intro a b c h k p h1 h2 h3 m hm
      rcases k p h1 h2 h3 m hm with g | g
      · exact h p h1 h2 h3 m g
      · exact Or.inr g
    induction h with
    | refl => exact ⟨hk, fun _ _ _ _ _ hm => Or.inl hm⟩
    | @step hist ck before k1 k2 X pr V u hz hc hn ih =>
      obtain ⟨d, p⟩ := tarRun_perm hT hall hB hind X pr V u ck k1 ih.1 (pick hz hc)
      rw [next_os hn]
      exact ⟨d, tr ih.2 p⟩
    | @kept hist ck before k1 k2 X pr V u hz hc hs hn ih =>
      obtain ⟨d, p⟩ := tarRun_perm hT hall hB hind X pr V u ck k1 ih.1 (pick hz hc)
      rw [next_os hn]
      exact ⟨d, tr ih.2 p⟩
  refine (main (k0 := onFS fs0) (diskOK_of_fit hfit) hchain).2 x.1.name ?_ hi hb m hm
  refine List.mem_map.2 ⟨x, List.mem_filter.2 ⟨hx, by simp [hr]⟩, ?_⟩
  simp [tarEntryOf, hr]

end

/-! ## Interruptions -/

/-- **C75**, for zip archives (for tar streams it is false): two extractions of the same archive, however interrupted, with whatever failures, to whatever
disks, under whatever umasks, give the file the same permissions. -/
theorem C75_zip_partial {A : Archive} {D : Decomp} {F : Nat} {cfg1 cfg2 : FCfg} {B1 B2 : Path} (hB1 : cfg1.Base B1) (hB2 : cfg2.Base B2) (hind1 : Independent cfg1 B1 A.plan)
    (hind2 : Independent cfg2 B2 A.plan) (fs1 fs2 : FS) (hfit1 : DiskFit B1 A.plan fs1) (hfit2 : DiskFit B2 A.plan fs2)
    (hist1 hist2 : List ECkpt) (k1 k2 : FSink) (hchain1 : ZipAttempts A D F (folderSink cfg1) (onFS fs1) hist1 k1)
    (hchain2 : ZipAttempts A D F (folderSink cfg2) (onFS fs2) hist2 k2) (ck1 ck2 : Option ECkpt) (before1 before2 : List ECkpt)
    (hck1 : ChooseCk hist1 ck1 before1) (hck2 : ChooseCk hist2 ck2 before2) (env1 env2 : ZEnv) (V1 V2 : SaveCons) (u1 : V1.St) (u2 : V2.St) (res1 res2 : List Entry)
    (hok1 : (zipResume A env1 D F (folderSink cfg1) V1 ck1 k1 u1).1 = .ok res1) (hok2 : (zipResume A env2 D F (folderSink cfg2) V2 ck2 k2 u2).1 = .ok res2)
    (zf : ZFile) (hz : zf ∈ A.files) (hi : shouldIgnore zf.name = false)
    (hsame : ∀ zf' ∈ A.files, zf'.name = zf.name → (zipFileEntry zf').kind = .file ∧ wantPerm zf'.mode = wantPerm zf.mode) :
    (zipResume A env1 D F (folderSink cfg1) V1 ck1 k1 u1).2.sink.os.fs.permAt (namePlace B1 zf.name) =
      (zipResume A env2 D F (folderSink cfg2) V2 ck2 k2 u2).2.sink.os.fs.permAt (namePlace B2 zf.name) :=
  (C74_zip_exact hB1 hind1 fs1 hfit1 hist1 k1 hchain1 ck1 before1 hck1 env1 V1 u1 res1 hok1 zf hz hi hsame).trans
    (C74_zip_exact hB2 hind2 fs2 hfit2 hist2 k2 hchain2 ck2 before2 hck2 env2 V2 u2 res2 hok2 zf hz hi hsame).symm

/-- **C75 is false** for tar streams: with the umask 022, the file "a" has the permissions 0644 after an uninterrupted
extraction; stopped within that file and resumed, 0666. -/
theorem C75_false_tar : (∃ res, (diskTar none (onFS diskEmpty) []).1 = .ok res ∧ (diskTar (some tarCk1) diskTarSink1 []).1 = .ok res) ∧
    (diskTar none (onFS diskEmpty) []).2.2.sink.os.fs.permAt [[100], [97]] = some 0o644 ∧
    (diskTar (some tarCk1) diskTarSink1 []).2.2.sink.os.fs.permAt [[100], [97]] = some 0o666 :=
  ⟨⟨_, by rfl, by rfl⟩, by rfl, by rfl⟩

/-! ## Non-vacuity -/

/-- Killed twice, then resumed: "b" has the permissions 0666, although the umask is 022. -/
example : (diskRun (killedAt 29 3) (some toyCk1) diskKill3.2.sink []).2.sink.os.fs.permAt [[100], cs ['b']] = some 0o666 := by
  obtain ⟨hist, h, rfl⟩ := diskKill3_attempts
  exact C74_zip_exact (base_faults exCfg_base _) (toyPlan_independent _) diskEmpty (diskEmpty_fit _ (by decide +kernel)) _ _ h
    _ _ (.pick (a := []) (b := []) rfl) toyEnv listCons [] _ diskKill4_ok ⟨cs ['b'], .deflate, false, 6, 3, 0o644, 3, ([], true)⟩ (by decide) (by rfl) (by decide)

/-- At the moment of the first kill, "c" is preallocated only. -/
example : diskKill2.os.fs.permAt [[100], cs ['c']] = some 0o644 := by rfl

example : ∃ zf' ∈ toyArchive.files, zf'.name = cs ['c'] ∧ (zipFileEntry zf').kind = .file ∧ (0o644 = wantPerm zf'.mode ∨ 0o644 = without (wantPerm zf'.mode) 0o022) := by
  have h := C74_zip (base_faults exCfg_base (killedAt 29 3)) (toyPlan_independent _) diskEmpty (diskEmpty_fit _ (by decide +kernel)) _ _ diskKill_attempts
    ⟨cs ['c'], .other, false, 1, 2, 0o644, 0, ([7, 8], true)⟩ (by decide) (by decide) (by rfl) (by decide) 0o644 (by rfl)
  rcases h with h | h
  · cases h
  · exact h

example : ∃ y ∈ toyMembers, y.1.name = [97] ∧ y.1.typ = .reg ∧ (0o644 = wantPerm y.1.mode ∨ 0o644 = without (wantPerm y.1.mode) 0o022) := by
  have h := C74_tar (toyTar_law true) toy_has (base_faults exCfg_base (killedAt 11 2)) (toyTarPlan_independent _) diskEmpty (diskEmpty_fit _ (by decide +kernel))
    _ _ diskTarK2_attempts (ttHdr 1 97 3, [10, 20, 30]) (by decide) (by rfl) (by rfl) (by decide) 0o644 (by rfl)
  rcases h with h | h
  · cases h
  · exact h

/-- An entry with setuid and execute bits: mode 04711 gives 0777, without the umask 0755. -/
example : (runOps exCfg [.getWriter ⟨cs ['x'], .file, 0o4711, 0, 9, 0, []⟩] (onFS diskEmpty)).os.fs.permAt [[100], cs ['x']] = some 0o755 := by rfl

end Savior
