import Verif.Results
import Verif.ZipToy
import Verif.Props.Zip
/-!
# Results and features: C50, C51
-/

namespace Savior

/-! ## C50: advertised features -/

/-- **C50** (zip). Block resume is advertised exactly when no member uses LZMA; otherwise entry resume is. Preallocation and
random access are always advertised. -/
theorem C50_zip (A : Archive) :
    ((zipFeatures A).support = .block ↔ ∀ f ∈ A.files, f.method ≠ .lzma) ∧
    ((zipFeatures A).support = .entry ↔ ∃ f ∈ A.files, f.method = .lzma) ∧
    (zipFeatures A).name = cs ['z', 'i', 'p'] ∧
    (zipFeatures A).preallocate = true ∧ (zipFeatures A).randomAccess = true ∧ (zipFeatures A).source = none := by
  have h : (zipFeatures A).support = if A.files.any (·.method = .lzma) then .entry else .block := zipSupport_foldl A.files .block
  refine ⟨?_, ?_, rfl, rfl, rfl, rfl⟩
  · rw [h]
    by_cases ha : A.files.any (·.method = .lzma) = true
    · rw [if_pos ha]
      simp only [List.any_eq_true, decide_eq_true_eq] at ha
      obtain ⟨f, hf, hm⟩ := ha
      exact ⟨fun x => (by cases x), fun x => absurd hm (x f hf)⟩
    · rw [if_neg ha]
      simp only [List.any_eq_true, decide_eq_true_eq, not_exists, not_and] at ha
      exact ⟨fun _ => ha, fun _ => rfl⟩
  · rw [h]
    by_cases ha : A.files.any (·.method = .lzma) = true
    · rw [if_pos ha]
      simp only [List.any_eq_true, decide_eq_true_eq] at ha
      exact ⟨fun _ => ha, fun _ => rfl⟩
    · rw [if_neg ha]
      simp only [List.any_eq_true, decide_eq_true_eq] at ha
      exact ⟨fun x => (by cases x), fun x => absurd x ha⟩

/-- A decompressing layer or a seek source: what the constructors of this repository produce around anything. -/
inductive SrcExpr.Native : SrcExpr → Prop
  | seek : Native .seek
  | flate (s) : Native (.flate s)
  | gzip (s) : Native (.gzip s)
  | bzip2 (s) : Native (.bzip2 s)
  | brotli (s) : Native (.brotli s)
  | counting {s} : Native s → Native (.counting s)

/-- **C50** (sources and tar). Every source built by this repository's constructors reports block support, a counting
source reports exactly what the source it wraps reports, and tar reports block support exactly when its source does (and
none otherwise), never preallocation or random access, along with its source's own features. -/
theorem C50_sources_tar :
    (∀ s : SrcExpr, s.Native → s.features.support = .block) ∧
    (∀ s : SrcExpr, (SrcExpr.counting s).features = s.features) ∧
    (∀ sf : SrcFeatures, ((tarFeatures sf).support = .block ↔ sf.support = .block) ∧
      ((tarFeatures sf).support = .none ↔ sf.support ≠ .block) ∧ (tarFeatures sf).name = cs ['t', 'a', 'r'] ∧
      (tarFeatures sf).preallocate = false ∧ (tarFeatures sf).randomAccess = false ∧ (tarFeatures sf).source = some sf) := by
  refine ⟨?_, fun _ => rfl, ?_⟩
  · intro s h
    induction h with
    | counting _ ih => exact ih
    | _ => rfl
  · rintro ⟨n, s⟩
    cases s <;> simp [tarFeatures]

example : (SrcExpr.counting (.gzip (.ext ⟨[], .none⟩))).features.support = .block :=
  C50_sources_tar.1 _ (.counting (.gzip _))

/-- What the advertisement means: a run over an archive none of whose *files* is stored or deflated never hands a
checkpoint to the save consumer, however often it asks, whatever the sink and whatever goes wrong. -/
theorem C50_nothing_saved (A : Archive) (env : ZEnv) (D : Decomp) (F : Nat) (K : SinkM) (V : SaveCons) (k : K.St) (u : V.St)
    (h : ∀ f ∈ A.files, (zipFileEntry f).kind = .file → f.method = .lzma ∨ f.method = .other) :
    ∀ ck a, Ev.save ck a ∉ (zipResume A env D F K V none k u).2.log := by
  intro ck a hm
  have h0 := zipResume_noSave (K := K) (V := V) A env D F k u h
  have : Ev.save ck a ∈ (zipResume A env D F K V none k u).2.log.filter Ev.isSave := List.mem_filter.2 ⟨hm, rfl⟩
  rw [h0] at this
  cases this

/-- **The advertisement is not truthful.** "Entry" support promises checkpoints between entries (extractor.go:91-92), "block"
support promises them within entries; there are archives of any number of non-empty files advertising either of them of
which no extraction ever saves a checkpoint. (Checkpoints are only ever made inside stored and deflated files.) -/
theorem C50_false_promises (s : Support) (hs : s ≠ .none) (n : Nat) : ∃ A : Archive, (zipFeatures A).support = s ∧ A.files.length = n + 1 ∧
    (∀ f ∈ A.files, (zipFileEntry f).kind = .file ∧ f.usize = 10) ∧
    ∀ env D F K V k u ck a, Ev.save ck a ∉ (zipResume A env D F K V none k u).2.log := by
  have go : ∀ m : ZMethod, (m = .lzma ∨ m = .other) → ∀ A : Archive, A.files = List.replicate (n + 1) ⟨[97], m, false, 10, 10, 420, 0, ([], true)⟩ →
      A.files.length = n + 1 ∧ (∀ f ∈ A.files, (zipFileEntry f).kind = .file ∧ f.usize = 10) ∧
      ∀ env D F K V k u ck a, Ev.save ck a ∉ (zipResume A env D F K V none k u).2.log := by
    intro m hm A hA
    refine ⟨by rw [hA]; simp, ?_, ?_⟩
    · intro f hf
      rw [hA] at hf
      rw [List.eq_of_mem_replicate hf]
      refine ⟨?_, rfl⟩
      have t1 : Nat.testBit 420 31 = false := by decide
      have t2 : Nat.testBit 420 27 = false := by decide
      simp [zipFileEntry, t1, t2]
    · intro env D F K V k u
      apply C50_nothing_saved
      intro f hf _
      rw [hA] at hf
      rw [List.eq_of_mem_replicate hf]
      exact hm
  cases s with
  | none => exact absurd rfl hs
  | entry =>
    refine ⟨⟨[], List.replicate (n + 1) ⟨[97], .lzma, false, 10, 10, 420, 0, ([], true)⟩⟩, ?_, go .lzma (.inl rfl) _ rfl⟩
    rw [(C50_zip _).2.1]
    exact ⟨_, List.mem_replicate.2 ⟨by simp, rfl⟩, rfl⟩
  | block =>
    refine ⟨⟨[], List.replicate (n + 1) ⟨[97], .other, false, 10, 10, 420, 0, ([], true)⟩⟩, ?_, go .other (.inr rfl) _ rfl⟩
    rw [(C50_zip _).1]
    intro f hf
    rw [List.eq_of_mem_replicate hf]
    simp

/-- The conclusion is about saves only: stored archives do save (so `C50_nothing_saved` is not true of everything). -/
example : (zipFeatures toyArchive).support = .block := by decide

/-! ## C51: totals -/

/-- **C51** (size). `Size()` is the sum of the sizes reduced to int64, so it does not depend on the order of the entries and
is additive over concatenation; when the true sum fits it is the true sum. -/
theorem C51_size (es : List Entry) :
    resultSize es = wrap64 (es.map (·.usize)).sum ∧
    (∀ fs, List.Perm es fs → resultSize es = resultSize fs) ∧
    (∀ fs, resultSize (es ++ fs) = wrap64 (resultSize es + resultSize fs)) ∧
    (-9223372036854775808 ≤ (es.map (·.usize)).sum ∧ (es.map (·.usize)).sum < 9223372036854775808 →
      resultSize es = (es.map (·.usize)).sum) := by
  refine ⟨resultSize_eq es, ?_, ?_, ?_⟩
  · intro fs hp
    rw [resultSize_eq, resultSize_eq]
    congr 1
    induction hp with
    | nil => rfl
    | cons x _ ih => simp [ih]
    | swap x y l => simp; omega
    | trans _ _ ih1 ih2 => exact ih1.trans ih2
  · intro fs
    rw [resultSize_eq, resultSize_eq, resultSize_eq, List.map_append, List.sum_append]
    simp only [wrap64]; omega
  · intro h
    rw [resultSize_eq]
    simp only [wrap64]; omega

/-- **C51** (stats). Each entry is counted in exactly one of the three counters: they are the numbers of files, directories
and symlinks in the list and add up to its length; the byte count printed is `Size()`. -/
theorem C51_stats (es : List Entry) :
    (resultStats es).files = (es.filter (·.kind = .file)).length ∧
    (resultStats es).dirs = (es.filter (·.kind = .dir)).length ∧
    (resultStats es).symlinks = (es.filter (·.kind = .symlink)).length ∧
    (resultStats es).files + (resultStats es).dirs + (resultStats es).symlinks = es.length ∧
    (resultStats es).bytes = resultSize es := by
  have h := resultStats_foldl es ⟨0, 0, 0, 0⟩
  have h' : resultStats es = _ := h
  rw [h']
  simp only [Nat.zero_add, List.countP_eq_length_filter]
  refine ⟨trivial, trivial, trivial, ?_, rfl⟩
  rw [← List.countP_eq_length_filter, ← List.countP_eq_length_filter, ← List.countP_eq_length_filter]
  clear h h'
  induction es with
  | nil => rfl
  | cons e es ih =>
    cases hk : e.kind <;> simp [hk] <;> omega

/-- What zip reports after success: the number and total size of its members, as the archive declares them. -/
theorem C51_zip_result (A : Archive) (env : ZEnv) (D : Decomp) (F : Nat) (K : SinkM) (V : SaveCons) (ck : Option ECkpt)
    (k : K.St) (u : V.St) (res : List Entry) (h : (zipResume A env D F K V ck k u).1 = .ok res) :
    resultSize res = wrap64 (A.files.map (·.usize)).sum ∧
    (resultStats res).files + (resultStats res).dirs + (resultStats res).symlinks = A.files.length := by
  have hr : res = A.files.map zipFileEntry := by
    revert h
    unfold zipResume
    simp only
    split
    · intro h; cases h
    · split
      · intro h; cases h
      · split
        · intro h; cases h
        · split
          · intro h; cases h
          · intro h; cases h; rfl
  subst hr
  refine ⟨?_, ?_⟩
  · rw [resultSize_eq, List.map_map]; rfl
  · rw [(C51_stats _).2.2.2.1]; simp

/-- Sizes wrap: two members of 2^62 bytes each and two more sum to a negative total. -/
example : resultSize (List.replicate 2 { (default : Entry) with usize := 4611686018427387904 }) = -9223372036854775808 := by decide

example : resultStats [{ (default : Entry) with kind := .file, usize := 3 }, { (default : Entry) with kind := .dir }] = ⟨3, 1, 1, 0⟩ := by decide

end Savior
