import Verif.Base
/-!
# Folders of archives (`/repo/src/util/resolver.rs`)

Names are texts (`to_str().unwrap()` on a name that is not Unicode is not modelled), paths are lists of names.  What
the file system and the archive parser answer is a parameter (`Disk`); the errors of `DirEntry::file_type` and of
single directory entries are left out.
-/

set_option autoImplicit false

namespace Wz

abbrev FName := List Char
abbrev FPath := List FName

/-! ## Names -/

/-- `Path::file_stem` of a file name other than `..` (std): what comes before the last dot, or all of it if there is
no dot or only one at the start.  Used in resolver.rs 62 and 146. -/
def fileStem (name : FName) : FName :=
  match (name.reverse.dropWhile (· ≠ '.')) with
  | [] => name
  | _ :: before => if before = [] then name else before.reverse

/-- `Path::extension` of a file name other than `..` (std), used in resolver.rs 148: what comes after the last dot,
if there is a stem before it -/
def fileExt (name : FName) : Option FName :=
  match (name.reverse.dropWhile (· ≠ '.')) with
  | [] => none
  | _ :: before => if before = [] then none else some (name.drop (before.length + 1))

/-- `str::split('_')` (resolver.rs 64) -/
def splitBar : FName → List FName
  | [] => [[]]
  | c :: cs =>
    if c = '_' then [] :: splitBar cs
    else match splitBar cs with
      | [] => [[c]]
      | p :: ps => (c :: p) :: ps

/-- one digit of `u16::from_str`: `checked_mul`, `to_digit`, `checked_add` (std) -/
def pushDigit (acc : Nat) (c : Char) : Option Nat :=
  if '0' ≤ c ∧ c ≤ '9' then
    let n := acc * 10 + (c.toNat - 48)
    if n < 65536 then some n else none
  else none

/-- `parse::<u16>()` (std, resolver.rs 70): a plus sign is allowed in front -/
def parseU16 (s : FName) : Option Nat :=
  match s with
  | [] => none
  | ['+'] => none
  | '+' :: ds => ds.foldlM pushDigit 0
  | ds => ds.foldlM pushDigit 0

/-- the test for a numbered part (resolver.rs 61-72) -/
def isPart (name : FName) : Bool :=
  let pieces := splitBar (fileStem name)
  if pieces.length < 2 then false
  else (parseU16 (pieces.getLast?.getD [])).isSome

/-! ## The file system -/

/-- `DirEntry::file_type`: links are not followed; for a link, whether it leads to a folder -/
inductive FKind where
  | file
  | folder
  | link (toFolder : Bool)
deriving DecidableEq, Repr

structure FEntry where
  name : FName
  kind : FKind
deriving DecidableEq, Repr

/-- what opening and parsing an archive gives: `from_wz_file_full` fails, `parse` fails, or the names of the children
(distinct, node.rs 213-229) -/
inductive Opening where
  | refused
  | unparsed
  | parsed (kids : List FName)
deriving DecidableEq, Repr

/-- the answers of the file system: the entries of a folder in the order of `read_dir`, or none if it cannot be read;
`try_exists`, none for an error -/
structure Disk where
  entries : FPath → Option (List FEntry)
  tryExists : FPath → Option Bool

/-- the result: a child as it came out of an archive, or an archive that was resolved, with its children -/
inductive RNode where
  | child (archive : FPath) (name : FName)
  | pack (archive : FPath) (kids : List (FName × RNode))

abbrev RKids := List (FName × RNode)

/-- `HashMap::insert` -/
def RKids.put (ks : RKids) (k : FName) (n : RNode) : RKids := ks.filter (·.1 ≠ k) ++ [(k, n)]

/-- the children of an archive -/
def kidsOf (archive : FPath) (names : List FName) : RKids := names.map fun k => (k, .child archive k)

/-- `get_root_wz_file_path` (resolver.rs 7-18) for the entry `name` of the folder `dir` -/
def rootFile (k : Disk) (dir : FPath) (name : FName) : Option FPath :=
  let p := dir ++ [name, name ++ ['.', 'w', 'z']]
  if (k.tryExists p).isSome then some p else none

/-- the loop over the entries in `resolve_root_wz_file_dir_full` (resolver.rs 39-97); `again` is the recursive call -/
def partsLoop (k : Disk) (op : FPath → Opening) (again : FPath → Except Err RNode) (dir : FPath) :
    List FEntry → RKids → Except Err RKids
  | [], ks => .ok ks
  | e :: es, ks =>
    if e.kind = .folder ∧ ks.any (·.1 = e.name) = true then
      match rootFile k dir e.name with
      | some p =>
        match again p with
        | .error x => .error x
        | .ok n => partsLoop k op again dir es (ks.put e.name n)
      | none => partsLoop k op again dir es ks
    else if e.kind = .file then
      if isPart e.name then
        match op (dir ++ [e.name]) with
        | .refused => .error .panicUnwrap
        | .unparsed => partsLoop k op again dir es ks
        | .parsed names =>
          partsLoop k op again dir es ((kidsOf (dir ++ [e.name]) names).foldl (fun ks (q : FName × RNode) => ks.put q.1 q.2) ks)
      else partsLoop k op again dir es ks
    else partsLoop k op again dir es ks

/-- `resolve_root_wz_file_dir_full` (resolver.rs 21-101); `op` is what opening an archive with the call's version, patch
version and keys gives; the fuel bounds the nesting of folders -/
def resolveRoot (k : Disk) (op : FPath → Opening) : Nat → FPath → Except Err RNode
  | 0, _ => .error .fuel
  | fuel + 1, file =>
    match op file with
    | .refused => .error .panicUnwrap
    | .unparsed => .error .panicUnwrap
    | .parsed names =>
      match k.entries file.dropLast with
      | none => .error (.lib "Io")
      | some es =>
        match partsLoop k op (resolveRoot k op fuel) file.dropLast es (kidsOf file names) with
        | .error e => .error e
        | .ok ks => .ok (.pack file ks)

/-- the loop in `resolve_base` (resolver.rs 143-176); `again` opens an archive with the keys and the patch version of
the base -/
def baseLoop (k : Disk) (again : FPath → Except Err RNode) (dir : FPath) : List FEntry → RKids → Except Err RKids
  | [], ks => .ok ks
  | e :: es, ks =>
    let stem := fileStem e.name
    let valid : Bool := (fileExt e.name).getD [] = ['w', 'z'] ∨ e.kind = .folder ∨ e.kind = .link true
    if ks.any (·.1 = stem) = true ∧ valid = true then
      let p? : Option FPath := if e.kind = .folder then rootFile k dir e.name else some (dir ++ [e.name])
      match p? with
      | none => baseLoop k again dir es ks
      | some p =>
        match again p with
        | .error x => .error x
        | .ok n => baseLoop k again dir es (ks.put stem n)
    else baseLoop k again dir es ks

/-- `resolve_base` (resolver.rs 111-180): `op` opens the base, `op2` the other archives with its keys and patch
version.  `first_parent.file_stem().unwrap()` (137) panics if the folder has no name: for a path without a folder and for
`./Base.wz` and `../Base.wz`. -/
def resolveBase (k : Disk) (op op2 : FPath → Opening) (fuel : Nat) (file : FPath) : Except Err RNode :=
  if file.getLast? ≠ some ['B', 'a', 's', 'e', '.', 'w', 'z'] then .error (.lib "Io")
  else match resolveRoot k op fuel file with
    | .error e => .error e
    | .ok (.child a n) => .ok (.child a n)
    | .ok (.pack _ ks) =>
      match file.dropLast.getLast? with
      | none => .error .panicUnwrap
      | some parent =>
        if parent = ['.'] ∨ parent = ['.', '.'] then .error .panicUnwrap
        else
        let dir := if fileStem parent = ['B', 'a', 's', 'e'] then file.dropLast.dropLast else file.dropLast
        match k.entries dir with
        | none => .error (.lib "Io")
        | some es =>
          match baseLoop k (resolveRoot k op2 fuel) dir es ks with
          | .error e => .error e
          | .ok ks => .ok (.pack file ks)

end Wz
