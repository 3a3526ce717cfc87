import Verif.Win
import Verif.Spec.Dest
import Verif.Spec.Disk
/-!
# Specification: places on Windows
-/

namespace Savior

/-- An ordinary name on Windows: not empty, not "." or "..", without a slash or backslash. -/
def WinOrdinary (n : Str) : Prop := Ordinary n ∧ bslash ∉ n

/-- A volume, as Go writes it: "C:" or "\\server\share". -/
inductive WinVol : Str → Prop
  | drive (c : Byte) : winSep c = false → WinVol [c, colon]
  | share (server share : Str) : WinOrdinary server → server ≠ [63] → share ≠ [] → slash ∉ share → bslash ∉ share →
      WinVol (bslash :: bslash :: server ++ bslash :: share)

/-- The text of a place on a volume. -/
def winText (V : Str) (J : Path) : Str := V ++ bslash :: fromSlash (joinSlash J)

/-- The sink's directory: the kernel takes `Directory` (the working directory, if it is empty) for the folder with the names `B` (read
left to right) on the volume `V`. It may be written with slashes or backslashes. A share need not be followed by a separator. -/
inductive WCfg.Base (w : WCfg) : Str → Path → Prop
  | rooted (V R : Str) (c : Byte) : w.full (if w.dir = [] then dot1 else w.dir) = .ok (V ++ c :: R) → WinVol (fromSlash V) → winSep c = true →
      Base w (fromSlash V) (lexWalk [] (splitSlash (toSlash R)))
  | share (V : Str) : w.full (if w.dir = [] then dot1 else w.dir) = .ok V → WinVol (fromSlash V) → (∀ c, fromSlash V ≠ [c, colon]) →
      Base w (fromSlash V) []

/-- What `GetFullPathName` always returns: a path with a volume (or device) name. -/
def WCfg.Qualifies (w : WCfg) : Prop := ∀ x y, w.full x = .ok y → 2 ≤ volLen y

/-- The kernel does not take ordinary names for "" , "." or "..", and a volume name for a volume name. -/
def WCfg.FoldOK (w : WCfg) : Prop := (∀ n, WinOrdinary n → Ordinary (w.fold n)) ∧ ∀ V, WinVol V → Ordinary (w.fold V)

/-- Where the folder is in the filesystem. -/
def WCfg.place (w : WCfg) (V : Str) (B : Path) : Path := (V :: B).map w.fold

/-- Where a name leads in the filesystem, if it is accepted. -/
def WCfg.placeOf (w : WCfg) (p : Str) : Option Path :=
  match w.destPath p with
  | .ok dst => some (w.names dst)
  | .error _ => none

/-- Different names lead to different places (case and all), and only folders have other places below them; no name is that of a file
and of a link. (Names that are ignored or refused do not count.) -/
def WCfg.Independent (w : WCfg) (plan : List (Str × Kind)) : Prop :=
  ∀ x ∈ plan, ∀ y ∈ plan, shouldIgnore x.1 = false → shouldIgnore y.1 = false → ∀ L M, w.placeOf x.1 = some L → w.placeOf y.1 = some M →
    (x.1 ≠ y.1 → L ≠ M ∧ (L <+: M → x.2 = .dir)) ∧ (x.1 = y.1 → x.2 = .symlink → y.2 ≠ .file)

/-- A disk on which the places of the plan are not reached through links, nor are files there hard links of each other. (Names that are ignored or refused
do not count.) -/
structure WCfg.DiskFit (w : WCfg) (plan : List (Str × Kind)) (fs : FS) : Prop where
  tree : fs.Tree
  nolink : ∀ x ∈ plan, shouldIgnore x.1 = false → ∀ L r t, w.placeOf x.1 = some L → r <+: L → r ≠ L → fs.nodes r ≠ some (.link t)
  nohard : ∀ x ∈ plan, ∀ y ∈ plan, shouldIgnore x.1 = false → shouldIgnore y.1 = false → ∀ L M i, w.placeOf x.1 = some L → w.placeOf y.1 = some M → fs.nodes L = some (.file i) →
    fs.nodes M = some (.file i) → L = M
  inodes : ∀ x ∈ plan, shouldIgnore x.1 = false → ∀ L i, w.placeOf x.1 = some L → fs.nodes L = some (.file i) → i < fs.next

/-- What a member is on a Windows disk: a link is a regular file with the target's text. -/
def winNode : PNode → PNode
  | .link t => .file t
  | n => n

end Savior
