import Verif.Gin.Parser

/-
The writer for the output of gin: gin/writer.go.

What is written is passed to slog's functions for levels; the model gives the calls made. Simplified: the options given
are there; the attribute of the call that reports why a line is no traffic is left out.
-/

namespace Verif.Gin

open Verif.Slog Verif.Data

/-- A `slog.Leveler`: a `slog.Level`, or something else, e.g. a `*slog.LevelVar`. -/
inductive Leveler where
  | level (l : Int)
  | other (id : Nat)
deriving DecidableEq

/-- `Traffic` (gin/writer.go:37-62). -/
structure Traffic where
  parse : Bool := false
  embed : Bool := false
  level : Option Leveler := none
  message : Bytes := []
  group : Bytes := []

/-- `Options` (gin/writer.go:23-30). -/
structure Options where
  level : Option Leveler := none
  traffic : Traffic := {}

/-- `writer` (gin/writer.go:97-99), with the level that is never nil. -/
structure Writer where
  level : Leveler
  traffic : Traffic

/-- The defaults for traffic (gin/writer.go:79-90). -/
def Traffic.defaults (t : Traffic) : Traffic :=
  if t.parse then
    let t := if t.level = none then { t with level := some (.level levelInfo) } else t
    let t := if t.group = [] && !t.embed then { t with group := b!"gin" } else t
    if t.message = [] then { t with message := b!"Gin Traffic" } else t
  else t

/-- `NewWriter` (gin/writer.go:72-92). -/
def newWriter (o : Options) : Writer :=
  { level := match o.level with
      | none => .level levelInfo
      | some l => l
    traffic := o.traffic.defaults }

/-- A name in brackets (gin/writer.go:108-110). -/
def ptnTag (name : Bytes) : Re := .cap 0 (seq [.star isS, .lit (b!"[" ++ name ++ b!"]"), .star isS])

/-- `ptnGIN` (gin/writer.go:108). -/
def ptnGIN : Re := ptnTag b!"GIN"

/-- `ptnGINdebug` (gin/writer.go:109). -/
def ptnGINdebug : Re := ptnTag b!"GIN-debug"

/-- The last alternative of `ptnLogLevel` (gin/writer.go:110). -/
def ptnAnyTag : Re := .cap 0 (seq [.star isS, .lit b!"[", .cap 1 (.star isDot), .lit b!"]", .star isS])

/-- `ptnLogLevel.FindStringSubmatch` (gin/writer.go:110): the text matched and that of the group. The alternatives are tried in
their order; what is before them can match in only one way, since the bracket is not white space. -/
def findLogLevel (msg : Bytes) : Option (Bytes × Bytes) :=
  match (ptnTag b!"DEBUG").find msg with
  | some m => some (Caps.text m 0, b!"DEBUG")
  | none =>
    match (ptnTag b!"ERROR").find msg with
    | some m => some (Caps.text m 0, b!"ERROR")
    | none =>
      match (ptnTag b!"INFO").find msg with
      | some m => some (Caps.text m 0, b!"INFO")
      | none =>
        match (ptnTag b!"WARNING").find msg with
        | some m => some (Caps.text m 0, b!"WARNING")
        | none => (ptnAnyTag.find msg).map fun m => (Caps.text m 0, Caps.text m 1)

/-- `logLevels` (gin/writer.go:102-107). -/
def logLevel (name : Bytes) : Option Int :=
  if name = b!"DEBUG" then some levelDebug
  else if name = b!"ERROR" then some levelError
  else if name = b!"INFO" then some levelInfo
  else if name = b!"WARNING" then some levelWarn
  else none

/-- The loop of `Write` (gin/writer.go:121-137), with so many rounds to go; `none` is the return of an error. -/
def strip : Nat → Leveler → Bytes → Option (Leveler × Bytes)
  | 0, level, msg => some (level, msg)
  | n + 1, level, msg =>
    match ptnGIN.find msg with
    | some m => strip n level (msg.drop (Caps.text m 0).length)
    | none =>
      match ptnGINdebug.find msg with
      | some m => strip n (.level levelDebug) (msg.drop (Caps.text m 0).length)
      | none =>
        match findLogLevel msg with
        | some (text, name) =>
          match logLevel name with
          | none => none
          | some l => strip n (.level l) (msg.drop text.length)
        | none => some (level, msg)

/-- `ptnTimePrefix` (gin/writer.go:111). -/
def ptnTimePrefix : Re := seq [.star isS, plus isD, .lit b!"/", plus isD, .lit b!"/", plus isD, .star isS, .lit b!"-", .star isS,
  plus isD, .lit b!":", plus isD, .lit b!":", plus isD, .star isS, .lit b!"|", .star isS, .cap 1 (plus isDot), .eot]

/-- Removing the time (gin/writer.go:141-144). -/
def dropTime (msg : Bytes) : Bytes :=
  match ptnTimePrefix.find msg with
  | some m => Caps.text m 1
  | none => msg

/-- A call of `slog.Debug`, `slog.Info`, `slog.Warn` or `slog.Error`. -/
structure Call where
  level : Int
  message : Bytes
  attrs : List Attr

/-- `strings.TrimRight(s, "\n")` (gin/writer.go:120). -/
def trimNewlines (s : Bytes) : Bytes := (s.reverse.dropWhile (· == 0x0A)).reverse

/-- The function called for a level, if there is one (gin/writer.go:165-177). -/
def known : Leveler → Option Int
  | .level l =>
    if l = levelDebug then some l
    else if l = levelError then some l
    else if l = levelInfo then some l
    else if l = levelWarn then some l
    else none
  | .other _ => none

/-- What `Write` comes to: calls, number of bytes, error. -/
structure Written where
  calls : List Call
  n : Nat
  err : Bool

/-- The call for the message (gin/writer.go:165-179), after others. -/
def finish (len : Nat) (level : Leveler) (msg : Bytes) (args : List Attr) (before : List Call) : Written :=
  match known level with
  | some l => { calls := before ++ [{ level := l, message := msg, attrs := args }], n := len, err := false }
  | none => { calls := before, n := 0, err := true }

/-- `Write` (gin/writer.go:118-180). -/
def Writer.write (w : Writer) (p : Bytes) : Written :=
  match strip 10 w.level (trimNewlines p) with
  | none => { calls := [], n := 0, err := true }
  | some (level, msg) =>
    let msg := dropTime msg
    if w.traffic.parse then
      match parse msg with
      | none => finish p.length level msg [] [{ level := levelDebug, message := b!"gin traffic parse", attrs := [] }]
      | some args =>
        finish p.length (.level levelInfo) w.traffic.message (if w.traffic.embed then args else [.grp w.traffic.group args]) []
    else finish p.length level msg [] []

end Verif.Gin
