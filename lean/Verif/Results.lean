import Verif.Zip
import Verif.Tar
/-!
# Results and advertised features

extractor.go: `Stats`, `Size`, `ResumeSupport`; the `Features` methods of the sources and the extractors.
-/

namespace Savior

/-- `ExtractorResult.Size` (extractor.go:44-51): a loop with an int64 accumulator. -/
def resultSize (es : List Entry) : Int := es.foldl (fun t e => wrap64 (t + e.usize)) 0

/-- The numbers `Stats` prints (extractor.go:26-41). -/
structure StatsNums where
  bytes : Int
  files : Nat
  dirs : Nat
  symlinks : Nat
  deriving DecidableEq, Repr

/-- One iteration of the loop of `Stats` (extractor.go:28-38). -/
def statsStep (s : StatsNums) (e : Entry) : StatsNums :=
  let s := match e.kind with
    | .file => { s with files := s.files + 1 }
    | .dir => { s with dirs := s.dirs + 1 }
    | .symlink => { s with symlinks := s.symlinks + 1 }
  { s with bytes := wrap64 (s.bytes + e.usize) }

/-- `ExtractorResult.Stats` (extractor.go:25-41), up to formatting (`united.FormatBytes` is external). A Go entry can have
a kind outside the three constants, which no counter counts; entries of the model cannot. The `int` counters do not
overflow for lists that fit in memory. -/
def resultStats (es : List Entry) : StatsNums := es.foldl statsStep ⟨0, 0, 0, 0⟩

/-- `ResumeSupport` (extractor.go:83-95). -/
inductive Support | none | entry | block
  deriving DecidableEq, Repr

/-- `SourceFeatures` (source.go:63-66). -/
structure SrcFeatures where
  name : Str
  support : Support
  deriving DecidableEq, Repr

/-- `ExtractorFeatures` (extractor.go:53-64), without the pointer: `source` is none when `SourceFeatures` is nil. -/
structure ExFeatures where
  name : Str
  support : Support
  preallocate : Bool
  randomAccess : Bool
  source : Option SrcFeatures
  deriving DecidableEq, Repr

/-- The sources one can build from this repository's constructors, and sources from elsewhere (`ext`, with whatever
features they report). `filesource` embeds a seek source (filesource.go:38-42) and so is `seek`. -/
inductive SrcExpr
  | seek
  | flate (s : SrcExpr)
  | gzip (s : SrcExpr)
  | bzip2 (s : SrcExpr)
  | brotli (s : SrcExpr)
  | counting (s : SrcExpr)
  | ext (f : SrcFeatures)

/-- The `Features` methods: seeksource.go:55-60, flatesource.go:40-45, gzipsource.go:44-49, bzip2source.go:41-46,
brotlisource.go:39-44, countingsource.go:27-29. -/
def SrcExpr.features : SrcExpr → SrcFeatures
  | .seek => ⟨cs ['s','e','e','k'], .block⟩
  | .flate _ => ⟨cs ['f','l','a','t','e'], .block⟩
  | .gzip _ => ⟨cs ['g','z','i','p'], .block⟩
  | .bzip2 _ => ⟨cs ['b','z','i','p','2'], .block⟩
  | .brotli _ => ⟨cs ['b','r','o','t','l','i'], .block⟩
  | .counting s => s.features
  | .ext f => f

/-- `ex.resumeSupport` (zipextractor.go:64-81): a loop over the members. -/
def zipSupport (fs : List ZFile) : Support :=
  fs.foldl (fun r f => match f.method with | .store => r | .deflate => r | .lzma => .entry | .other => r) .block

/-- `ZipExtractor.Features` (zipextractor.go:349-358). -/
def zipFeatures (A : Archive) : ExFeatures := ⟨cs ['z','i','p'], zipSupport A.files, true, true, none⟩

/-- `tarExtractor.Features` (tarextractor.go:254-274). -/
def tarFeatures (sf : SrcFeatures) : ExFeatures :=
  ⟨cs ['t','a','r'], match sf.support with | .block => .block | _ => .none, false, false, some sf⟩

section
variable {K : SinkM} {V : SaveCons}

/-- Is this a checkpoint being handed to the save consumer? -/
def Ev.isSave : Ev → Bool
  | .save _ _ => true
  | _ => false

theorem ioCopy_noSave (chunks : List (List Byte)) (e : Option Err) (w : XW K V) :
    (ioCopy chunks e w).2.log.filter Ev.isSave = w.log.filter Ev.isSave := by
  induction chunks generalizing w with
  | nil => rfl
  | cons c cs ih =>
    unfold ioCopy
    split
    · exact ih w
    · simp only
      have h : (w.write c).2.log.filter Ev.isSave = w.log.filter Ev.isSave := by
        simp [XW.write, XW.say, XW.advance, List.filter_append, Ev.isSave]
      split
      · exact h
      · split
        · exact h
        · rw [ih, h]

theorem zipCopyFile_noSave (env : ZEnv) (i : Nat) (w : XW K V) :
    (zipCopyFile env i w).2.log.filter Ev.isSave = w.log.filter Ev.isSave := by
  have hopen : ∀ w : XW K V, (zipOpen w).2.log.filter Ev.isSave = w.log.filter Ev.isSave := by
    intro w
    unfold zipOpen
    split
    · rfl
    · simp [XW.say, List.filter_append, Ev.isSave]
  unfold zipCopyFile
  simp only
  split
  · rfl
  · split
    · rw [hopen]
    · rw [ioCopy_noSave, hopen]

theorem zipEntry_noSave (A : Archive) (env : ZEnv) (D : Decomp) (F : Nat) (total : Int) (i : Nat) (zf : ZFile) (w : XW K V)
    (h : (w.ck.entry.getD (zipFileEntry zf)).kind = .file → zf.method = .lzma ∨ zf.method = .other) :
    (zipEntry A env D F total i zf w).2.log.filter Ev.isSave = w.log.filter Ev.isSave := by
  unfold zipEntry
  simp only
  split
  · rfl
  · have key : ∀ r : Option Err × XW K V, r.2.log.filter Ev.isSave = w.log.filter Ev.isSave →
        (match r.1 with
          | some e => ((some e, r.2) : Option Err × XW K V)
          | none => (none, { r.2 with done := wrap64 (r.2.done + zf.usize) })).2.log.filter Ev.isSave = w.log.filter Ev.isSave := by
      intro r hr
      split <;> exact hr
    apply key
    split
    · simp [XW.say, List.filter_append, Ev.isSave]
    · split
      · rfl
      · rfl
      · simp [XW.say, List.filter_append, Ev.isSave]
    · rename_i hk
      have hm := h hk
      unfold zipFile
      rcases hm with hm | hm <;> rw [hm] <;> simp only <;> rw [zipCopyFile_noSave]

theorem zipLoop_noSave (A : Archive) (env : ZEnv) (D : Decomp) (F : Nat) (total : Int) (fs : List ZFile) (i : Nat) (w : XW K V)
    (hck : w.ck.entry = none)
    (h : ∀ f ∈ fs, (zipFileEntry f).kind = .file → f.method = .lzma ∨ f.method = .other) :
    (zipLoop A env D F total fs i w).2.log.filter Ev.isSave = w.log.filter Ev.isSave := by
  induction fs generalizing i w with
  | nil => rfl
  | cons zf fs ih =>
    unfold zipLoop
    split
    · rfl
    · simp only
      have he := zipEntry_noSave A env D F total i zf w (by rw [hck]; exact h zf (by simp))
      split
      · exact he
      · rw [ih _ _ rfl (fun f hf => h f (by simp [hf]))]
        exact he

theorem zipPrealloc_noSave (fs : List ZFile) (w : XW K V) :
    (zipPrealloc fs w).2.log.filter Ev.isSave = w.log.filter Ev.isSave ∧ (zipPrealloc fs w).2.ck = w.ck := by
  induction fs generalizing w with
  | nil => exact ⟨rfl, rfl⟩
  | cons zf fs ih =>
    unfold zipPrealloc
    split
    · simp only
      split
      · exact ⟨by simp [XW.say, List.filter_append, Ev.isSave], rfl⟩
      · obtain ⟨a, b⟩ := ih (({ w with sink := (K.preallocate (zipFileEntry zf) w.sink).2 } : XW K V).say (.prealloc (zipFileEntry zf) (K.preallocate (zipFileEntry zf) w.sink).1))
        refine ⟨?_, b.trans rfl⟩
        rw [a]
        simp [XW.say, List.filter_append, Ev.isSave]
    · exact ih w

/-- A fresh extraction of an archive none of whose files is stored or deflated never saves. -/
theorem zipResume_noSave (A : Archive) (env : ZEnv) (D : Decomp) (F : Nat) (k : K.St) (u : V.St)
    (h : ∀ f ∈ A.files, (zipFileEntry f).kind = .file → f.method = .lzma ∨ f.method = .other) :
    (zipResume A env D F K V none k u).2.log.filter Ev.isSave = [] := by
  have hp := zipPrealloc_noSave A.files (zipInit A none k u : XW K V)
  have hp' : (zipPrepare A none (zipInit A none k u : XW K V)) = zipPrealloc A.files (zipInit A none k u : XW K V) := rfl
  have hl : (zipInit A none k u : XW K V).log.filter Ev.isSave = [] := rfl
  unfold zipResume
  simp only
  rw [hp']
  split
  · rw [hp.1, hl]
  · split
    · rw [hp.1, hl]
    · have hz := zipLoop_noSave A env D F (zipSum A.files) (A.files.drop ((none : Option ECkpt).getD freshCk).entryIndex.toNat)
        ((none : Option ECkpt).getD freshCk).entryIndex.toNat (zipPrealloc A.files (zipInit A none k u : XW K V)).2
        (by rw [hp.2]; rfl) (fun f hf => h f (List.mem_of_mem_drop hf))
      rw [hp.1, hl] at hz
      split
      · exact hz
      · split <;> exact hz

end

/-! ## Int64 sums -/

theorem wrap64_add_wrap64 (a b : Int) : wrap64 (wrap64 a + b) = wrap64 (a + b) := by
  simp only [wrap64]; omega

theorem resultSize_foldl (es : List Entry) (t : Int) :
    es.foldl (fun t e => wrap64 (t + e.usize)) (wrap64 t) = wrap64 (t + (es.map (·.usize)).sum) := by
  induction es generalizing t with
  | nil => simp
  | cons e es ih =>
    rw [List.foldl_cons, wrap64_add_wrap64, ih, List.map_cons, List.sum_cons]
    congr 1; omega

theorem resultSize_eq (es : List Entry) : resultSize es = wrap64 (es.map (·.usize)).sum := by
  have := resultSize_foldl es 0
  rw [show wrap64 0 = 0 from by simp [wrap64]] at this
  simpa [resultSize] using this

theorem resultStats_foldl (es : List Entry) (s : StatsNums) :
    es.foldl statsStep s = ⟨es.foldl (fun t e => wrap64 (t + e.usize)) s.bytes, s.files + es.countP (·.kind = .file),
      s.dirs + es.countP (·.kind = .dir), s.symlinks + es.countP (·.kind = .symlink)⟩ := by
  induction es generalizing s with
  | nil => simp
  | cons e es ih =>
    rw [List.foldl_cons, ih]
    unfold statsStep
    cases hk : e.kind <;> simp [hk] <;> omega

theorem zipSupport_foldl (fs : List ZFile) (r : Support) :
    fs.foldl (fun r f => match f.method with | .store => r | .deflate => r | .lzma => Support.entry | .other => r) r =
      if fs.any (·.method = .lzma) then .entry else r := by
  induction fs generalizing r with
  | nil => simp
  | cons f fs ih =>
    rw [List.foldl_cons, ih]
    cases hm : f.method <;> simp [hm]

end Savior
