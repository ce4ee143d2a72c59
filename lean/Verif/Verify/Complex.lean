import Verif.Verify.Warnings
import Verif.Bench.Data

/-
Model of the generated test cases of the verification suite, /repo/verify/tests/complex.go:
the parser of test programs, the record it logs, the map it expects, and the adjustments
made to the map that was decoded.

Simplifications: the text of the log statement (`logStmt`) and debug output are left out;
`p.logMap` and `p.ptrMap` share maps, which is shown by the frames around the current map.
-/

namespace Verif.Verify
open Go Warning Slog Bench

variable {F : Type} [DecidableEq F]

/-- The float64 values of the tests. -/
structure Consts (F : Type) where
  /-- `float64(i)`. -/
  ofInt : Int → F
  /-- The float64 with this shortest decimal text. -/
  ofF64 : F64 → F
  /-- `d.Seconds()`. -/
  seconds : Int → F

/-- What the test programs take from their surroundings. -/
structure Ctx (F : Type) where
  /-- `p.HasWarning`. -/
  has : Warning → Bool
  N : Consts F
  /-- `time.Duration.String`. -/
  durationString : Int → Bytes
  /-- `slog.Value.String`, of values other than strings. -/
  valueString : Value → Bytes
  /-- The values of the kinds Any and Time as such (no attribute of the tests has one). -/
  goValue : Value → Any F
  /-- `strings.ToUpper`. -/
  upper : Bytes → Bytes
  /-- `time.Now().Format(time.RFC3339)` when the package was set up. -/
  stamp : Bytes

/-- `message` (verify/tests/data.go:9). -/
def message : Bytes := b!"This is a message"

/-- `math.Pi`: 3.141592653589793. -/
def pi64 : F64 := .fin false 3 [1, 4, 1, 5, 9, 2, 6, 5, 3, 5, 8, 9, 7, 9, 3]

/-- `math.E`: 2.718281828459045. -/
def e64 : F64 := .fin false 2 [7, 1, 8, 2, 8, 1, 8, 2, 8, 4, 5, 9, 0, 4, 5]

/-- A `*hiddenValuer` of a string (verify/tests/valuer.go:10-16) as a value; nothing but
`LogValue` is called on it. -/
def hidden (s : Bytes) : Value := .logValuer { marshal := .ok b!"{}" } (.string s)

/-- `Attributes` (verify/tests/complex.go:304-328). -/
def attributes (stamp : Bytes) (c : UInt8) : Option (List Attr) :=
  if c = 0x41 then
    some [.mk b!"string" (.string b!"value"), .mk b!"int" (.int64 (-13)), .mk b!"uint" (.uint64 23)]
  else if c = 0x42 then
    some [.mk b!"aTime" (.string stamp), .mk b!"bool" (.bool true), .mk b!"duration" (.duration 3802000000000)]
  else if c = 0x43 then
    some [.grp b!"groupC" [.mk b!"name" (.string b!"Goober Snoofus"), .mk b!"skidoo" (.int64 23),
            .mk b!"pi" (.float64 pi64)],
          .mk b!"bool" (.bool false), .mk b!"valuer" (hidden b!"Big Tree"),
          .mk b!"duration" (.duration 1429000000000)]
  else if c = 0x44 then some [.mk b!"E" (.float64 e64), .mk b!"uint64" (.uint64 79)]
  else none

/-- `getAttrs` (verify/tests/complex.go:392-405): the rest of the definition and the
attributes; `none` is an error. -/
def getAttrs (stamp : Bytes) (definition : Bytes) : Bytes × Option (List Attr) :=
  match definition with
  | 0x2B :: c :: rest => (rest, attributes stamp c)
  | d => (d, some [])

/-! ### Expected values -/

mutual
/-- The value `addAttrToMap` puts into a map (verify/tests/complex.go:334-381); `none`:
nothing is put there. -/
def attrValue (C : Ctx F) (inGroup : Bool) : Value → Option (Any F)
  | .any a => some (C.goValue (.any a))
  | .bool b => some (.bool b)
  | .duration d =>
    some (if C.has groupDuration && inGroup then .num (C.N.ofInt d)
      else if C.has durationString then .str (C.durationString d)
      else if C.has durationSeconds then .num (C.N.seconds d)
      else if C.has durationMillis then .num (C.N.ofInt (d.tdiv 1000000))
      else .num (C.N.ofInt d))
  | .float64 f => some (.num (C.N.ofF64 f))
  | .int64 i => some (.num (C.N.ofInt i))
  | .string s => some (.str s)
  | .time t => some (C.goValue (.time t))
  | .uint64 n => some (.num (C.N.ofInt n))
  | .group as => some (.map (subMap C inGroup [] as))
  | .logValuer _ r =>
    if C.has resolver then none
    else some (.str (match r with | .string s => s | v => C.valueString v))
/-- `addAttrsToMap` for the map of a group (verify/tests/complex.go:366-370, 383-390). -/
def subMap (C : Ctx F) (inGroup : Bool) (m : AMap F) : List Attr → AMap F
  | [] => m
  | .mk k v :: as =>
    subMap C inGroup (match attrValue C inGroup v with | some a => Map.set m k a | none => m) as
end

/-! ### The parser -/

/-- A map in which the next inner map was put under a name; `inside` tells whether it is
still there. -/
structure Frame (F : Type) where
  map : AMap F
  name : Bytes
  inside : Bool

/-- `parser` (verify/tests/complex.go:118-125). The logger is the chain of derivations from
the logger handed in; `cur` is `ptrMap`, and `outer` are the maps around it, the last one
being `logMap`; `logged` are the calls of `Info`. -/
structure Parser (F : Type) where
  inGroup : Bool := false
  inWith : Bool := false
  definition : Bytes
  ops : List Op := []
  cur : AMap F := []
  outer : List (Frame F) := []
  logged : List (List Op × List Attr) := []

/-- `newParser` (verify/tests/complex.go:127-138). -/
def newParser (definition : Bytes) : Parser F := { definition }

/-- An entry of `currMap()` (verify/tests/complex.go:144-146, 379). -/
def Parser.setCur (p : Parser F) (k : Bytes) (v : Any F) : Parser F := { p with cur := Map.set p.cur k v }

/-- An entry of the outermost map, which may take the place of the next inner one. -/
def setLast (k : Bytes) (v : Any F) : List (Frame F) → List (Frame F)
  | [] => []
  | [f] => [{ f with map := Map.set f.map k v, inside := f.inside && k != f.name }]
  | f :: fs => f :: setLast k v fs

/-- An entry of `p.logMap` (verify/tests/complex.go:229-230, 379). -/
def Parser.setTop (p : Parser F) (k : Bytes) (v : Any F) : Parser F :=
  if p.outer.isEmpty then p.setCur k v else { p with outer := setLast k v p.outer }

/-- `addAttrsToMap` (verify/tests/complex.go:330-332, 383-390) with the map chosen by
`put`. -/
def addAttrs (C : Ctx F) (put : Parser F → Bytes → Any F → Parser F) (p : Parser F) (as : List Attr) : Parser F :=
  as.foldl (fun q a => match attrValue C p.inGroup a.value with | some v => put q a.key v | none => q) p

/-- `string(b)` of a byte: the UTF-8 encoding of the rune. -/
def byteString (b : UInt8) : Bytes :=
  if b < 0x80 then [b] else [(0xC0 : UInt8) ||| (b >>> 6), (0x80 : UInt8) ||| (b &&& 0x3F)]

/-- `logger.With` (log/slog/logger.go): without arguments the logger itself. -/
def Parser.with (p : Parser F) (as : List Attr) : Parser F :=
  if as.isEmpty then p else { p with ops := p.ops ++ [Op.attrs as] }

/-- The instruction `G` after the name has been read (verify/tests/complex.go:194-217); the
flag tells about an error. -/
def groupStep (C : Ctx F) (p : Parser F) (name : Bytes) : Parser F × Bool :=
  let p := { p with
    outer := { map := Map.set p.cur name (.map []), name, inside := true } :: p.outer
    cur := []
    ops := p.ops ++ [Op.group name]
    inGroup := true
    inWith := false }
  match getAttrs C.stamp p.definition with
  | (d, none) => ({ p with definition := d }, true)
  | (d, some attrs) =>
    let p := { p with definition := d }
    if attrs.length > 0 then
      let p := { p.with attrs with inWith := true }
      (addAttrs C (if C.has groupWithTop then Parser.setTop else Parser.setCur) p attrs, false)
    else (p, false)

/-- The instruction `M` (verify/tests/complex.go:218-243). `Record.Add` leaves out groups
without members; no attribute list of the tests has one. -/
def messageStep (C : Ctx F) (p : Parser F) : Parser F × Bool :=
  match getAttrs C.stamp p.definition with
  | (d, none) => ({ p with definition := d }, true)
  | (d, some attrs) =>
    let p := { p with definition := d, logged := p.logged ++ [(p.ops, attrs)] }
    let p := (p.setTop b!"level" (.str b!"INFO")).setTop b!"msg" (.str message)
    (addAttrs C (if C.has groupAttrMsgTop && (!p.inGroup || p.inWith) then Parser.setTop else Parser.setCur)
      p attrs, false)

/-- The instruction `W` (verify/tests/complex.go:244-253). -/
def withStep (C : Ctx F) (p : Parser F) : Parser F × Bool :=
  match getAttrs C.stamp p.definition with
  | (d, none) => ({ p with definition := d }, true)
  | (d, some attrs) => (addAttrs C Parser.setCur ({ p with definition := d }.with attrs) attrs, false)

/-- The name of a group and the rest of the definition (verify/tests/complex.go:189-193). -/
def groupName : Bytes → Bytes × Bytes
  | [] => (b!"group", [])
  | c :: rest => (b!"group" ++ byteString c, rest)

/-- `execute` (verify/tests/complex.go:179-259), for a definition that is not empty; the
flag tells about an error. -/
def execute (C : Ctx F) (p : Parser F) : Parser F × Bool :=
  match p.definition with
  | [] => (p, false)
  | c :: rest =>
    let p := { p with definition := rest }
    if c = 0x20 then (p, false)
    else if c = 0x47 then
      groupStep C { p with definition := (groupName rest).2 } (groupName rest).1
    else if c = 0x4D then messageStep C p
    else if c = 0x57 then withStep C p
    else (p, true)

/-- `parse` (verify/tests/complex.go:169-177); the first argument bounds the number of
instructions. -/
def parse (C : Ctx F) : Nat → Parser F → Parser F × Bool
  | 0, p => (p, false)
  | n + 1, p =>
    if p.definition.isEmpty then (p, false)
    else match execute C p with
      | (p, true) => (p, true)
      | (p, false) => parse C n p

/-- A program run to its end: every instruction takes at least one byte. -/
def runProgram (C : Ctx F) (definition : Bytes) : Parser F × Bool :=
  parse C definition.length (newParser definition)

/-! ### Comparing -/

mutual
/-- What the loop of `removeEmptyGroups` makes of a value (verify/tests/complex.go:280-292);
`none`: the entry is deleted. -/
def stripAny (has : Warning → Bool) (depth : Nat) : Any F → Option (Any F)
  | .map g =>
    let g' := if g.length > 0 then stripMap has (depth + 1) g else g
    if depth > 0 || !has groupEmpty then (if g'.length < 1 then none else some (.map g'))
    else if has groupEmpty then (if g'.length < 1 then none else some (.map g'))
    else some (.map g')
  | .nil => some .nil
  | .bool b => some (.bool b)
  | .num x => some (.num x)
  | .str s => some (.str s)
  | .list l => some (.list l)
/-- `removeEmptyGroups` (verify/tests/complex.go:278-297). No value of these maps is a
LogValuer (293-295). -/
def stripMap (has : Warning → Bool) (depth : Nat) : List (Bytes × Any F) → List (Bytes × Any F)
  | [] => []
  | (k, a) :: m =>
    match stripAny has depth a with
    | some a' => (k, a') :: stripMap has depth m
    | none => stripMap has depth m
end

/-- `p.logMap` as a whole. -/
def Parser.whole (p : Parser F) : AMap F :=
  p.outer.foldl (fun m f => if f.inside then Map.set f.map f.name (.map m) else f.map) p.cur

/-- `expected` (verify/tests/complex.go:149-152). -/
def Parser.expected (C : Ctx F) (p : Parser F) : AMap F := stripMap C.has 1 p.whole

/-- Renaming `message` (verify/tests/complex.go:263-267). -/
def fixMsg (actual : AMap F) : AMap F :=
  match Map.get actual b!"message" with
  | some v => Map.del (Map.set actual b!"msg" v) b!"message"
  | none => actual

/-- The level in upper case (verify/tests/complex.go:268-274). -/
def fixLvl (C : Ctx F) (actual : AMap F) : AMap F :=
  if C.has levelCase then
    match Map.get actual b!"level" with
    | some (.str level) => Map.set actual b!"level" (.str (C.upper level))
    | _ => actual
  else actual

/-- `fixActual` (verify/tests/complex.go:261-276). -/
def fixActual (C : Ctx F) (actual : AMap F) : AMap F :=
  stripMap C.has 0 (fixLvl C (fixMsg (Map.del actual b!"time")))

/-- What `Info` of a flash logger derived by `ops` from the one of `TestComplexCases` writes
(verify/tests/complex.go:80, 224-227; verify/tests/suite.go:60-63); the time
and the caller are `t` and `pc`. -/
def flashInfo (env : Env) (t pc : Nat) (ops : List Op) (attrs : List Attr) : Bytes :=
  match (Flash.H.plain (Flash.build env (some ⟨false, some fun _ => levelInfo, none⟩) none)).derive ops with
  | some h => logCall h ⟨levelInfo, message, attrs⟩ t pc
  | none => []

/-- One round of the loop of `TestComplexCases` (verify/tests/complex.go:90-101): does the
map that was expected match? `none`: the test ends, since the text in the buffer cannot be
decoded (`logMap`, verify/tests/utility.go:42-50). `write` is what `Info` writes to the
buffer. -/
def complexCase (C : Ctx F) (unmarshal : Bytes → Option (AMap F) × Option Bytes)
    (write : List Op → List Attr → Bytes) (definition : Bytes) : Option Bool :=
  let p := (runProgram C definition).1
  match unmarshal ((p.logged.map fun e => write e.1 e.2).flatten) with
  | (some actual, none) => some (deepEqual (.map (p.expected C)) (.map (fixActual C actual)))
  | _ => none

/-- `tests` (verify/tests/complex.go:20-56). -/
def programs : List Bytes :=
  [b!"               M",
   b!"               M+A",
   b!"               M+B",
   b!"W+A            M",
   b!"W+A            M+B",
   b!"G1             M",
   b!"G1             M+A",
   b!"G1             M+B",
   b!"G1+A           M",
   b!"G1+A           M+B",
   b!"G1+C           M+B",
   b!"G1   G2        M",
   b!"G1   G2        M+C",
   b!"G1+A G2        M",
   b!"G1+A G2        M+C",
   b!"G1   G2+B      M",
   b!"G1   G2+B      M+C",
   b!"G1+A G2+B      M",
   b!"G1+A G2+B      M+C",
   b!"G1   G2   G3   M",
   b!"G1   G2   G3   M+C",
   b!"G1+A G2   G3   M",
   b!"G1+A G2   G3   M+C",
   b!"G1   G2+B G3   M",
   b!"G1   G2+B G3   M+C",
   b!"G1   G2   G3+C M",
   b!"G1   G2   G3+C M+B",
   b!"G1+A G2+B G3   M",
   b!"G1+A G2+B G3   M+C",
   b!"G1+A G2   G3+C M",
   b!"G1+A G2   G3+C M+B",
   b!"G1   G2+B G3+C M",
   b!"G1   G2+B G3+C M+A",
   b!"G1+A G2+B G3+C M",
   b!"G1+A G2+B G3+C M+D"]

end Verif.Verify
