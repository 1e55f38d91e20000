/-!
Tags of attributes: malcolm/core/tags.py and malcolm/modules/builtin/util.py 42-67 `set_tags`.

A string is the list of its characters.
-/
namespace Verif.Tags

abbrev Text := List Char

/-- The beginnings of tags, tags.py 40, 63, 72, 77, 105, 111, 139, 150, 157, 165 -/
def sourcePre : Text := ['s', 'o', 'u', 'r', 'c', 'e', 'P', 'o', 'r', 't', ':']
def sinkPre : Text := ['s', 'i', 'n', 'k', 'P', 'o', 'r', 't', ':']
def configPre : Text := ['c', 'o', 'n', 'f', 'i', 'g', ':']
def groupPre : Text := ['g', 'r', 'o', 'u', 'p', ':']
def badgePre : Text := ['b', 'a', 'd', 'g', 'e', 'v', 'a', 'l', 'u', 'e', ':']
def widgetPre : Text := ['w', 'i', 'd', 'g', 'e', 't', ':']

example : sourcePre = "sourcePort:".toList ∧ sinkPre = "sinkPort:".toList ∧ configPre = "config:".toList ∧
    groupPre = "group:".toList ∧ badgePre = "badgevalue:".toList ∧ widgetPre = "widget:".toList := by decide

/-- tags.py 46-55, `Port` -/
inductive Port
  | bool | int32 | ndarray | motor | block
  deriving DecidableEq, Repr

/-- tags.py 50-54: the values of the Enum -/
def Port.value : Port → Text
  | .bool => ['b', 'o', 'o', 'l']
  | .int32 => ['i', 'n', 't', '3', '2']
  | .ndarray => ['N', 'D', 'A', 'r', 'r', 'a', 'y']
  | .motor => ['m', 'o', 't', 'o', 'r']
  | .block => ['b', 'l', 'o', 'c', 'k']

/-- `cls(port)`, tags.py 97; `none` is the ValueError -/
def Port.ofValue (v : Text) : Option Port :=
  [Port.bool, .int32, .ndarray, .motor, .block].find? (fun p => p.value = v)

/-- tags.py 56-63 -/
def sinkPortTag (p : Port) (disconnected : Text) : Text := sinkPre ++ p.value ++ ':' :: disconnected

/-- tags.py 65-72 -/
def sourcePortTag (p : Port) (connected : Text) : Text := sourcePre ++ p.value ++ ':' :: connected

/-- tags.py 74-79 -/
def withSourcePortTag (p : Port) (tags : List Text) (connected : Text) : List Text :=
  tags.filter (fun t => !sourcePre.isPrefixOf t) ++ [sourcePortTag p connected]

/-- The part of the pattern `(.*):(.*)`, tags.py 43, on one line: the first `.*` takes as much as it can -/
def lastColon : Text → Option (Text × Text)
  | [] => none
  | c :: cs =>
    match lastColon cs with
    | some (a, b) => some (c :: a, b)
    | none => if c = ':' then some ([], cs) else none

/-- What follows a prefix -/
def after (pre t : Text) : Option Text := if pre.isPrefixOf t then some (t.drop pre.length) else none

/-- `port_tag_re.match(tag)`, tags.py 43: whether "source", and the two groups after it. `.` does not match a line end,
and nothing has to follow -/
def portMatch (tag : Text) : Option (Bool × Text × Text) :=
  match after sourcePre tag with
  | some rest => (lastColon (rest.takeWhile (· ≠ '\n'))).map fun g => (true, g)
  | none =>
    match after sinkPre tag with
    | some rest => (lastColon (rest.takeWhile (· ≠ '\n'))).map fun g => (false, g)
    | none => none

/-- What `port_tag_details` does -/
inductive Details
  | nothing
  | found (isSource : Bool) (port : Port) (extra : Text)
  | valueError
  deriving DecidableEq, Repr

/-- tags.py 81-100, `port_tag_details` -/
def portTagDetails : List Text → Details
  | [] => .nothing
  | tag :: tags =>
    match portMatch tag with
    | some (src, port, extra) =>
      match Port.ofValue port with
      | some p => .found src p extra
      | none => .valueError
    | none => portTagDetails tags

/-- `f"{n:d}"` -/
def showInt (n : Int) : Text := if n < 0 then '-' :: Nat.toDigits 10 n.natAbs else Nat.toDigits 10 n.natAbs

/-- `int(text)`, for a text that is decimal digits with at most a minus sign in front; other forms that Python takes
(spaces, underscores, plus) are not modelled -/
def readInt : Text → Option Int
  | '-' :: ds => if ds ≠ [] ∧ ds.all Char.isDigit then some (-(Nat.ofDigitChars 10 ds 0 : Int)) else none
  | ds => if ds ≠ [] ∧ ds.all Char.isDigit then some (Nat.ofDigitChars 10 ds 0 : Int) else none

/-- tags.py 143-151 -/
def configTag (iteration : Int) : Text := configPre ++ showInt iteration

/-- tags.py 154-160 -/
def getConfigTag (tags : List Text) : Option Text := tags.find? (fun t => configPre.isPrefixOf t)

/-- tags.py 163-166 -/
def withoutConfigTags (tags : List Text) : List Text := tags.filter (fun t => !configPre.isPrefixOf t)

/-- tags.py 103-106 -/
def groupTag (name : Text) : Text := groupPre ++ name

/-- tags.py 109-112 -/
def withoutGroupTags (tags : List Text) : List Text := tags.filter (fun t => !groupPre.isPrefixOf t)

/-- tags.py 128-140 -/
def badgeValueTag (mri attr display : Text) : Text :=
  badgePre ++ display ++ ':' :: attr ++ ':' :: mri

/-- tags.py 33-40, the tag of a widget other than `Widget.NONE` -/
def widgetTag (value : Text) : Text := widgetPre ++ value

/-- childpart.py 230, `int(tag.split(":")[1])`: what lies between the first ":" and the next -/
def iterationOf (tag : Text) : Option Int :=
  match tag.dropWhile (· ≠ ':') with
  | [] => none
  | _ :: rest => readInt (rest.takeWhile (· ≠ ':'))

/-- builtin/util.py 63-66: the tags of a sink port -/
def sinkTags (badge : Option Text) : Option Port → List Text
  | some p => sinkPortTag p [] :: badge.toList
  | none => []

/-- builtin/util.py 42-67, `set_tags`: the tags. `widget` is the one given or the default, `none` is `Widget.NONE` -/
def setTags (writeable : Bool) (config : Int) (group : Text) (widget : Option Text) (sinkPort : Option Port)
    (badge : Option Text) : List Text :=
  (widget.map widgetTag).toList ++
  (if config ≠ 0 ∧ writeable then [configTag config] else []) ++
  (if group ≠ [] then [groupTag group] else []) ++
  sinkTags badge sinkPort

end Verif.Tags
