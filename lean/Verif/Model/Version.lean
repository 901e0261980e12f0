import Verif.Model.NDArray

/-!
# The version of the package (paragami/_version.py)

`import paragami` calls `get_versions()` (paragami/__init__.py:20-22).  Text is a list of characters.  What `git` answers is an input
(`Git`).  White space and digits are ASCII; decoding of git's output is not modelled, nor is `verbose` printing.
-/

namespace Paragami
namespace Version

/-- Text. -/
abbrev Text := List Char

/-- ASCII white space. -/
def isSpace (c : Char) : Bool := c == ' ' || c == '\t' || c == '\n' || c == '\r' || c == '\x0b' || c == '\x0c'

/-- `str.strip()`. -/
def strip (t : Text) : Text := ((t.dropWhile isSpace).reverse.dropWhile isSpace).reverse

/-- `str.strip("()")`. -/
def stripParens (t : Text) : Text :=
  ((t.dropWhile fun c => c == '(' || c == ')').reverse.dropWhile fun c => c == '(' || c == ')').reverse

/-- `str.replace(" ", new, 1)`. -/
def replaceSpace (new : Text) : Text → Text
  | [] => []
  | c :: t => if c = ' ' then new ++ t else c :: replaceSpace new t

/-- `str.startswith` and `s[len(prefix):]` together. -/
def dropPrefix? : (pre : Text) → Text → Option Text
  | [], t => some t
  | _ :: _, [] => none
  | p :: ps, c :: t => if p = c then dropPrefix? ps t else none

/-- `str.split(",")`. -/
def splitComma : Text → List Text
  | [] => [[]]
  | c :: t =>
    if c = ',' then [] :: splitComma t
    else match splitComma t with
      | [] => [[c]]
      | w :: ws => (c :: w) :: ws

/-- Exceptions: `NotThisMethod` (_version.py:51-52), or any other. -/
inductive VErr where
  | notThisMethod
  | raised (e : Err)
deriving DecidableEq

/-- What `git` prints on success (`none`: the command failed or cannot be run). -/
structure Git where
  /-- `git rev-parse --git-dir` -/
  gitDir : Option Text
  /-- `git describe --tags --dirty --always --long --match PREFIX*` -/
  describe : Option Text
  /-- `git rev-parse HEAD` -/
  head : Option Text
  /-- `git rev-list HEAD --count` -/
  count : Option Text
  /-- `git show -s --format=%ci HEAD` -/
  date : Option Text

/-- _version.py:70-104 `run_command`: the output, stripped, if the command succeeded. -/
def runCommand (out : Option Text) : Option Text := out.map strip

/-- _version.py:250-305 the dictionary `pieces` (`closestTag` `none`: `None`; when `error` is set the last three keys are absent, and nothing reads them). -/
structure Pieces where
  long : Text
  short : Text
  error : Option Text
  dirty : Bool
  closestTag : Option Text
  distance : Nat
  date : Option Text
deriving DecidableEq

/-- `[0-9a-f]`. -/
def isHex (c : Char) : Bool := c.isDigit || c == 'a' || c == 'b' || c == 'c' || c == 'd' || c == 'e' || c == 'f'

/-- _version.py:298 `int(t)`, for decimal digits only (Python also takes signs, underscores and surrounding white space). -/
def parseInt (t : Text) : Except VErr Nat :=
  if t ≠ [] ∧ t.all Char.isDigit then .ok (Nat.ofDigitChars 10 t 0) else .error (.raised (.valueError "invalid literal for int()"))

/-- _version.py:269 `re.search(r'^(.+)-(\d+)-g([0-9a-f]+)$', t)`, from the end: as neither a digit nor a hexadecimal digit is a hyphen or a
`g`, the last two groups are the longest runs.  (`$` before a final line break is not modelled.) -/
def parseDescribe (t : Text) : Option (Text × Nat × Text) :=
  let r := t.reverse
  let hex := (r.takeWhile isHex).reverse
  match r.dropWhile isHex with
  | 'g' :: '-' :: r =>
    let num := (r.takeWhile Char.isDigit).reverse
    match r.dropWhile Char.isDigit with
    | '-' :: tag =>
      if hex ≠ [] ∧ num ≠ [] ∧ tag ≠ [] ∧ '\n' ∉ tag then some (tag.reverse, Nat.ofDigitChars 10 num 0, hex) else none
    | _ => none
  | _ => none

/-- _version.py:260-263 the text removed at the end of `git describe --dirty`. -/
def dirtySuffix : Text := ['-', 'd', 'i', 'r', 't', 'y']

/-- _version.py:216-305 `git_pieces_from_vcs`. -/
def piecesFromVcs (tagPrefix : Text) (g : Git) : Except VErr Pieces := do
  if (runCommand g.gitDir).isNone then throw .notThisMethod
  let describeOut ← match runCommand g.describe with
    | none => throw .notThisMethod
    | some d => pure (strip d)
  let full ← match runCommand g.head with
    | none => throw .notThisMethod
    | some d => pure (strip d)
  let short := full.take 7
  let dirty := dirtySuffix.isSuffixOf describeOut
  let gitDescribe := if dirty then describeOut.take (describeOut.length - dirtySuffix.length) else describeOut
  let date : Except VErr Text := match runCommand g.date with
    | none => throw (.raised .attributeError)
    | some d => pure (replaceSpace [] (replaceSpace ['T'] (strip d)))
  if '-' ∈ gitDescribe then
    match parseDescribe gitDescribe with
    | none => return ⟨full, short, some ("unable to parse git-describe output: '".toList ++ describeOut ++ ['\'']), dirty, none, 0, none⟩
    | some (fullTag, n, hex) =>
      match dropPrefix? tagPrefix fullTag with
      | none =>
        return ⟨full, short, some ("tag '".toList ++ fullTag ++ "' doesn't start with prefix '".toList ++ tagPrefix ++ ['\'']), dirty, none, 0, none⟩
      | some tag =>
        let d ← date
        return ⟨full, hex, none, dirty, some tag, n, some d⟩
  else
    let n ← match runCommand g.count with
      | none => throw (.raised .typeError)
      | some c => parseInt c
    let d ← date
    return ⟨full, short, none, dirty, none, n, some d⟩

/-- `if pieces["closest-tag"]`: there is a tag and it is not empty. -/
def tagOf (p : Pieces) : Option Text :=
  match p.closestTag with
  | none => none
  | some t => if t = [] then none else some t

/-- `"%d"`. -/
def num (n : Nat) : Text := Nat.toDigits 10 n

/-- _version.py:308-312 `plus_or_dot` (called with a tag only). -/
def plusOrDot (tag : Text) : Text := if '+' ∈ tag then ['.'] else ['+']

/-- _version.py:315-337 `render_pep440`. -/
def renderPep440 (p : Pieces) : Text :=
  match tagOf p with
  | some tag =>
    if p.distance ≠ 0 ∨ p.dirty then
      tag ++ plusOrDot tag ++ num p.distance ++ ".g".toList ++ p.short ++ (if p.dirty then ".dirty".toList else [])
    else tag
  | none => "0+untagged.".toList ++ num p.distance ++ ".g".toList ++ p.short ++ (if p.dirty then ".dirty".toList else [])

/-- _version.py:340-353 `render_pep440_pre`. -/
def renderPre (p : Pieces) : Text :=
  match tagOf p with
  | some tag => if p.distance ≠ 0 then tag ++ ".post.dev".toList ++ num p.distance else tag
  | none => "0.post.dev".toList ++ num p.distance

/-- _version.py:356-380 `render_pep440_post`. -/
def renderPost (p : Pieces) : Text :=
  match tagOf p with
  | some tag =>
    if p.distance ≠ 0 ∨ p.dirty then
      tag ++ ".post".toList ++ num p.distance ++ (if p.dirty then ".dev0".toList else []) ++ plusOrDot tag ++ ['g'] ++ p.short
    else tag
  | none => "0.post".toList ++ num p.distance ++ (if p.dirty then ".dev0".toList else []) ++ "+g".toList ++ p.short

/-- _version.py:383-402 `render_pep440_old`. -/
def renderOld (p : Pieces) : Text :=
  match tagOf p with
  | some tag =>
    if p.distance ≠ 0 ∨ p.dirty then tag ++ ".post".toList ++ num p.distance ++ (if p.dirty then ".dev0".toList else []) else tag
  | none => "0.post".toList ++ num p.distance ++ (if p.dirty then ".dev0".toList else [])

/-- _version.py:405-422 `render_git_describe`. -/
def renderDescribe (p : Pieces) : Text :=
  (match tagOf p with
    | some tag => if p.distance ≠ 0 then tag ++ ['-'] ++ num p.distance ++ "-g".toList ++ p.short else tag
    | none => p.short) ++ (if p.dirty then dirtySuffix else [])

/-- _version.py:425-442 `render_git_describe_long`. -/
def renderLong (p : Pieces) : Text :=
  (match tagOf p with
    | some tag => tag ++ ['-'] ++ num p.distance ++ "-g".toList ++ p.short
    | none => p.short) ++ (if p.dirty then dirtySuffix else [])

/-- The dictionary `get_versions` returns (_version.py:204-213, 472-474, 518-520). -/
structure Info where
  version : Text
  fullRevisionid : Option Text
  dirty : Option Bool
  error : Option Text
  date : Option Text
deriving DecidableEq

/-- _version.py:445-474 `render`. -/
def render (p : Pieces) (style : String) : Except VErr Info :=
  if p.error.getD [] ≠ [] then .ok ⟨"unknown".toList, some p.long, none, p.error, none⟩
  else
    let style := if style = "" ∨ style = "default" then "pep440" else style
    let done (t : Text) : Except VErr Info := .ok ⟨t, some p.long, some p.dirty, none, p.date⟩
    if style = "pep440" then done (renderPep440 p)
    else if style = "pep440-pre" then done (renderPre p)
    else if style = "pep440-post" then done (renderPost p)
    else if style = "pep440-old" then done (renderOld p)
    else if style = "git-describe" then done (renderDescribe p)
    else if style = "git-describe-long" then done (renderLong p)
    else .error (.raised (.valueError ("unknown style '" ++ style ++ "'")))

/-- What `git archive` puts into the file (_version.py:20-30). -/
structure Keywords where
  refnames : Text
  full : Text
  date : Text

/-- Comparison of texts by code points. -/
def textLe : Text → Text → Bool
  | [], _ => true
  | _ :: _, [] => false
  | a :: s, b :: t => if a = b then textLe s t else decide (a.val < b.val)

/-- `sorted`. -/
def sorted (l : List Text) : List Text := l.mergeSort textLe

/-- _version.py:161-213 `git_versions_from_keywords` (with the keywords that `get_keywords` gives). -/
def versionsFromKeywords (k : Keywords) (tagPrefix : Text) : Except VErr Info :=
  let date := replaceSpace [] (replaceSpace ['T'] (strip k.date))
  let refnames := strip k.refnames
  if (dropPrefix? "$Format".toList refnames).isSome then .error .notThisMethod
  else
    let refs := (splitComma (stripParens refnames)).map strip
    let tagged := refs.filterMap (dropPrefix? "tag: ".toList)
    let tags := if tagged = [] then refs.filter (·.any Char.isDigit) else tagged
    match (sorted tags).filterMap (dropPrefix? tagPrefix) with
    | r :: _ => .ok ⟨r, some (strip k.full), some false, none, some date⟩
    | [] => .ok ⟨"0+unknown".toList, some (strip k.full), some false, some "no suitable tags".toList, none⟩

/-- _version.py:107-129 `versions_from_parentdir`: `root` is the list of the names of the directory and of those above it, innermost first
(beyond the file system's root, names are empty). -/
def versionsFromParentdir (parentdirPrefix : Text) (root : List Text) : Except VErr Info :=
  let names := (root ++ [[], [], []]).take 3
  match names.filterMap (dropPrefix? parentdirPrefix) with
  | r :: _ => .ok ⟨r, none, some false, none, none⟩
  | [] => .error .notThisMethod

/-- The configuration in _version.py:37-48. -/
def tagPrefix : Text := ['v']
/-- The configuration in _version.py:37-48 (the text `None`, not Python's `None`). -/
def parentdirPrefix : Text := "None".toList
/-- The configuration in _version.py:37-48. -/
def style : String := "pep440-post"

/-- _version.py:477-520 `get_versions`; `root` is `none` when there is no `__file__`. -/
def getVersions (k : Keywords) (g : Git) (root : Option (List Text)) : Except VErr Info :=
  match versionsFromKeywords k tagPrefix with
  | .ok i => .ok i
  | .error (.raised e) => .error (.raised e)
  | .error .notThisMethod =>
    match root with
    | none => .ok ⟨"0+unknown".toList, none, none, some "unable to find root of source tree".toList, none⟩
    | some root =>
      match (do render (← piecesFromVcs tagPrefix g) style) with
      | .ok i => .ok i
      | .error (.raised e) => .error (.raised e)
      | .error .notThisMethod =>
        match (if parentdirPrefix ≠ [] then versionsFromParentdir parentdirPrefix root else .error .notThisMethod) with
        | .ok i => .ok i
        | .error (.raised e) => .error (.raised e)
        | .error .notThisMethod => .ok ⟨"0+unknown".toList, none, none, some "unable to compute version".toList, none⟩

end Version
end Paragami
