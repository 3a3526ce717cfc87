import Verif.FolderSink
/-!
# Specification: lexical meaning of paths
-/

namespace Savior

/-- Reading path elements left to right from the folder `cur`: "" and "." stay, ".." goes up (the root stays), a name goes
down. -/
def lexWalk (cur : Path) : List Str → Path
  | [] => cur
  | c :: t =>
    if c = [] ∨ c = dot1 then lexWalk cur t
    else if c = dot2 then lexWalk cur.dropLast t
    else lexWalk (cur ++ [c]) t

/-- The place a rooted path names, lexically. -/
def placeOf (p : Str) : Path := lexWalk [] (splitSlash p)

/-- The sink's directory: a place, given as (`Directory`, working directory). The working directory, if known, is rooted. -/
inductive FCfg.Base (cfg : FCfg) : Path → Prop
  | rooted : isAbs cfg.dir = true → Base cfg (placeOf cfg.dir)
  | relative {w} : isAbs cfg.dir = false → cfg.cwd = .ok w → isAbs w = true → Base cfg (lexWalk (placeOf w) (splitSlash cfg.dir))

/-- The text of a place. -/
def pathText (p : Path) : Str := slash :: joinSlash p

end Savior
