import Verif.ZipSteps
/-!
# Adding facts to an invariant of a zip extraction
-/

namespace Savior

/-- Further facts kept by the steps of an extraction, given those `Q` keeps. (Proof helper; see `ZipSteps`.) -/
structure ZipExtra {A : Archive} {D : Decomp} {env : ZEnv} {total : Int} {K : SinkM} {V : SaveCons} (Q : ZipSteps A D env total K V) where
  Beg : Nat → XW K V → Prop
  Mid : Nat → Nat → Nat → XW K V → Prop
  Cop : Nat → List Byte → XW K V → Prop
  Bad : XW K V → Prop
  beg_bad : ∀ i w, Q.Beg i w → Beg i w → Bad w
  enter_bad : ∀ i zf w, Q.Beg i w → Beg i w → A.files[i]? = some zf → Bad (zipEnter i zf w)
  zero_bad : ∀ i zf w, Q.Beg i w → Beg i w → A.files[i]? = some zf → zf.encrypted = false → (zipFileEntry zf).kind = .file → ¬ zf.resumable → Bad (zipZero (zipEnter i zf w))
  mkdir : ∀ i zf w, Q.Beg i w → Beg i w → A.files[i]? = some zf → zf.encrypted = false → (zipFileEntry zf).kind = .dir → ∀ w',
    w' = ({ zipEnter i zf w with sink := (K.mkdir (w.ck.entry.getD (zipFileEntry zf)) w.sink).2 }).say
      (.mkdir (w.ck.entry.getD (zipFileEntry zf)) (K.mkdir (w.ck.entry.getD (zipFileEntry zf)) w.sink).1) →
    ((K.mkdir (w.ck.entry.getD (zipFileEntry zf)) w.sink).1 = none → Beg (i + 1) (zipNext zf w')) ∧
    ((K.mkdir (w.ck.entry.getD (zipFileEntry zf)) w.sink).1 ≠ none → Bad w')
  symlink : ∀ i zf w chunks, Q.Beg i w → Beg i w → A.files[i]? = some zf → zf.encrypted = false → (zipFileEntry zf).kind = .symlink →
    env.opens i = .ok (chunks, none) → ∀ w',
    w' = ({ zipEnter i zf w with sink := (K.symlink (w.ck.entry.getD (zipFileEntry zf)) chunks.flatten w.sink).2 }).say
      (.symlink (w.ck.entry.getD (zipFileEntry zf)) chunks.flatten (K.symlink (w.ck.entry.getD (zipFileEntry zf)) chunks.flatten w.sink).1) →
    ((K.symlink (w.ck.entry.getD (zipFileEntry zf)) chunks.flatten w.sink).1 = none → Beg (i + 1) (zipNext zf w')) ∧
    ((K.symlink (w.ck.entry.getD (zipFileEntry zf)) chunks.flatten w.sink).1 ≠ none → Bad w')
  open_ : ∀ i zf w o0 oc, Q.Beg i w → Beg i w → A.files[i]? = some zf → zf.encrypted = false → (zipFileEntry zf).kind = .file → zf.resumable →
    StartsAt A D zf w.ck o0 →
    (∀ wo, (w.ck.entry.getD (zipFileEntry zf)).woff = wo → (wo = o0 ∨ wo = 0 → oc = o0 ∨ oc = 0) ∧ (wo = o0 → oc = o0) ∧ ((o0 : Int) ≤ wo → (oc : Int) = wo)) →
    ((zipOpen (zipEnter i zf w)).1 = none → (w.ck.entry.getD (zipFileEntry zf)).woff ≤ oc → oc ≤ (zipContent A D zf).1.length →
      Q.Mid i o0 oc { (zipOpen (zipEnter i zf w)).2 with stop := false } → Mid i o0 oc { (zipOpen (zipEnter i zf w)).2 with stop := false }) ∧
    ((zipOpen (zipEnter i zf w)).1 ≠ none → Bad (zipOpen (zipEnter i zf w)).2)
  save : ∀ i zf w o0 o c, Q.Mid i o0 o w → Mid i o0 o w → A.files[i]? = some zf → 0 < o → (D.Exact → o0 < o) → fileCk A D zf c o → w.stop = false →
    w.stop = w.stopErr → (∃ n u, (V.shouldSave n u).1 = true) → Q.Mid i o0 o (zipOnSave total c w).1 → Mid i o0 o (zipOnSave total c w).1
  write : ∀ i zf w o0 o bs, Q.Mid i o0 o w → Mid i o0 o w → A.files[i]? = some zf → bs = ((zipContent A D zf).1.drop o).take bs.length →
    o + bs.length ≤ (zipContent A D zf).1.length →
    ((w.write bs).1.2 = none → Q.Mid i o0 (o + bs.length) (w.write bs).2 → Mid i o0 (o + bs.length) (w.write bs).2) ∧
    ((w.write bs).1.2 ≠ none → Bad (w.write bs).2)
  should : ∀ i w o0 o n, Q.Mid i o0 o w → Mid i o0 o w → Mid i o0 o { w with cons := (V.shouldSave n w.cons).2 }
  emit : ∀ i w o0 o, Q.Mid i o0 o w → Mid i o0 o w → Mid i o0 o (w.say (.progress (zipProgress total w)))
  mid_bad : ∀ i w o0 o, Q.Mid i o0 o w → Mid i o0 o w → Bad w
  mid_stop : ∀ i zf w o0 o, Q.Mid i o0 o w → Mid i o0 o w → A.files[i]? = some zf → w.stopErr = true → Bad (zipNext zf w)
  mid_end : ∀ i zf w o0, Q.Mid i o0 (zipContent A D zf).1.length w → Mid i o0 (zipContent A D zf).1.length w → A.files[i]? = some zf →
    (zipContent A D zf).2 = true → w.stopErr = false → Beg (i + 1) (zipNext zf w)
  copy : ∀ i zf w, Q.Beg i w → Beg i w → A.files[i]? = some zf → zf.encrypted = false → (zipFileEntry zf).kind = .file → ¬ zf.resumable →
    ((zipOpen (zipZero (zipEnter i zf w))).1 = none → Q.Cop i [] (zipOpen (zipZero (zipEnter i zf w))).2 → Cop i [] (zipOpen (zipZero (zipEnter i zf w))).2) ∧
    ((zipOpen (zipZero (zipEnter i zf w))).1 ≠ none → Bad (zipOpen (zipZero (zipEnter i zf w))).2)
  copy_write : ∀ i w xs bs, Q.Cop i xs w → Cop i xs w → bs ≠ [] →
    ((w.write bs).1.2 = none → (w.write bs).1.1 = bs.length → Q.Cop i (xs ++ bs) (w.write bs).2 → Cop i (xs ++ bs) (w.write bs).2) ∧ Bad (w.write bs).2
  copy_bad : ∀ i w xs, Q.Cop i xs w → Cop i xs w → Bad w
  copy_end : ∀ i zf w chunks, Q.Cop i chunks.flatten w → Cop i chunks.flatten w → A.files[i]? = some zf → env.opens i = .ok (chunks, none) →
    Beg (i + 1) (zipNext zf w)

/-- Both together. -/
def ZipExtra.steps {A : Archive} {D : Decomp} {env : ZEnv} {total : Int} {K : SinkM} {V : SaveCons} {Q : ZipSteps A D env total K V} (E : ZipExtra Q) :
    ZipSteps A D env total K V where
  Beg i w := Q.Beg i w ∧ E.Beg i w
  Mid i o0 o w := Q.Mid i o0 o w ∧ E.Mid i o0 o w
  Cop i xs w := Q.Cop i xs w ∧ E.Cop i xs w
  Bad w := Q.Bad w ∧ E.Bad w
  beg_bad i w h := ⟨Q.beg_bad i w h.1, E.beg_bad i w h.1 h.2⟩
  beg_kind i zf w h := Q.beg_kind i zf w h.1
  beg_src i zf w h := Q.beg_src i zf w h.1
  enter_bad i zf w h hzf := ⟨Q.enter_bad i zf w h.1 hzf, E.enter_bad i zf w h.1 h.2 hzf⟩
  zero_bad i zf w h hzf he hk hr := ⟨Q.zero_bad i zf w h.1 hzf he hk hr, E.zero_bad i zf w h.1 h.2 hzf he hk hr⟩
  mkdir i zf w h hzf he hk w' hw' :=
    have q := Q.mkdir i zf w h.1 hzf he hk w' hw'
    have e := E.mkdir i zf w h.1 h.2 hzf he hk w' hw'
    ⟨fun x => ⟨q.1 x, e.1 x⟩, fun x => ⟨q.2 x, e.2 x⟩⟩
  symlink i zf w chunks h hzf he hk ho w' hw' :=
    have q := Q.symlink i zf w chunks h.1 hzf he hk ho w' hw'
    have e := E.symlink i zf w chunks h.1 h.2 hzf he hk ho w' hw'
    ⟨fun x => ⟨q.1 x, e.1 x⟩, fun x => ⟨q.2 x, e.2 x⟩⟩
  open_ i zf w o0 oc h hzf he hk hr hs ho :=
    have q := Q.open_ i zf w o0 oc h.1 hzf he hk hr hs ho
    have e := E.open_ i zf w o0 oc h.1 h.2 hzf he hk hr hs ho
    ⟨fun x y z => ⟨q.1 x y z, e.1 x y z (q.1 x y z)⟩, fun x => ⟨q.2 x, e.2 x⟩⟩
  save i zf w o0 o c h hzf ho hx hc hs hse hv :=
    have q := Q.save i zf w o0 o c h.1 hzf ho hx hc hs hse hv
    ⟨q, E.save i zf w o0 o c h.1 h.2 hzf ho hx hc hs hse hv q⟩
  write i zf w o0 o bs h hzf hb hl :=
    have q := Q.write i zf w o0 o bs h.1 hzf hb hl
    have e := E.write i zf w o0 o bs h.1 h.2 hzf hb hl
    ⟨fun x => ⟨q.1 x, e.1 x (q.1 x)⟩, fun x => ⟨q.2 x, e.2 x⟩⟩
  should i w o0 o n h := ⟨Q.should i w o0 o n h.1, E.should i w o0 o n h.1 h.2⟩
  emit i w o0 o h := ⟨Q.emit i w o0 o h.1, E.emit i w o0 o h.1 h.2⟩
  mid_bad i w o0 o h := ⟨Q.mid_bad i w o0 o h.1, E.mid_bad i w o0 o h.1 h.2⟩
  mid_stop i zf w o0 o h hzf hs := ⟨Q.mid_stop i zf w o0 o h.1 hzf hs, E.mid_stop i zf w o0 o h.1 h.2 hzf hs⟩
  mid_end i zf w o0 h hzf hc hs := ⟨Q.mid_end i zf w o0 h.1 hzf hc hs, E.mid_end i zf w o0 h.1 h.2 hzf hc hs⟩
  copy i zf w h hzf he hk hr :=
    have q := Q.copy i zf w h.1 hzf he hk hr
    have e := E.copy i zf w h.1 h.2 hzf he hk hr
    ⟨fun x => ⟨q.1 x, e.1 x (q.1 x)⟩, fun x => ⟨q.2 x, e.2 x⟩⟩
  copy_write i w xs bs h hb :=
    have q := Q.copy_write i w xs bs h.1 hb
    have e := E.copy_write i w xs bs h.1 h.2 hb
    ⟨fun x y => ⟨q.1 x y, e.1 x y (q.1 x y)⟩, q.2, e.2⟩
  copy_bad i w xs h := ⟨Q.copy_bad i w xs h.1, E.copy_bad i w xs h.1 h.2⟩
  copy_end i zf w chunks h hzf ho := ⟨Q.copy_end i zf w chunks h.1 hzf ho, E.copy_end i zf w chunks h.1 h.2 hzf ho⟩

end Savior
