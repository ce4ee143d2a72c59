import Verif.Server.Cache
import Verif.Data.WarnParser

/-
The pages of the server: from a link on a page over the route of gin to the data that the template is given;
cmd/server/server.go, cmd/server/text.go and the links in cmd/server/pages and cmd/server/parts.

What happens between the template and the handler is done by other programs, and is described here as their
documents say: html/template normalises what is put into a URL (`normalize`); escaping for HTML is undone by the browser
and left out; the browser leaves out query and fragment, resolves relative links and removes dot segments (WHATWG URL); net/http
decodes the path (package net/url); gin looks for the route that matches, with parameters that are not empty and have no
slash.

Simplified: redirections by gin for paths that match no route are left out; the templates themselves are a
function given from outside; writing to the connection does not fail; log output is left out. Items of texts are values.
-/

namespace Verif.Server

open Verif.Go Verif.Data

/-! ### From the template to the server -/

/-- The value of a hexadecimal digit. -/
def unhex (c : UInt8) : Option UInt8 :=
  if 0x30 ≤ c ∧ c ≤ 0x39 then some (c - 0x30)
  else if 0x61 ≤ c ∧ c ≤ 0x66 then some (c - 0x61 + 10)
  else if 0x41 ≤ c ∧ c ≤ 0x46 then some (c - 0x41 + 10)
  else none

/-- A hexadecimal digit, as `%02x` writes it. -/
def hexDigit (n : UInt8) : UInt8 := if n < 10 then 0x30 + n else 0x61 + (n - 10)

/-- Characters that html/template leaves as they are in a URL (`processURLOnto` with `norm`). -/
def urlKeeps (c : UInt8) : Bool :=
  b!"!#$&*+,/:;=?@[]-._~".contains c || (0x30 ≤ c && c ≤ 0x39) || (0x61 ≤ c && c ≤ 0x7A) || (0x41 ≤ c && c ≤ 0x5A)

/-- Whether text begins with two hexadecimal digits. -/
def twoHex : Bytes → Bool
  | a :: b :: _ => (unhex a).isSome && (unhex b).isSome
  | _ => false

/-- What html/template makes of text put into the path of a URL (`processURLOnto` with `norm`), as in
`href="/go-slog/handler/{{ . }}.html"` (cmd/server/pages/home.gohtml:27). -/
def normalize : Bytes → Bytes
  | [] => []
  | c :: s =>
    if urlKeeps c || (c == 0x25 && twoHex s) then c :: normalize s
    else 0x25 :: hexDigit (c >>> 4) :: hexDigit (c &&& 15) :: normalize s

/-- Decoding of a path; `none`: bad request (net/url, `unescape` with `encodePath`). -/
def pctDecode : Bytes → Option Bytes
  | [] => some []
  | c :: s =>
    if c = 0x25 then
      match s with
      | a :: b :: r =>
        match unhex a, unhex b with
        | some x, some y => (pctDecode r).map ((x <<< 4 ||| y) :: ·)
        | _, _ => none
      | _ => none
    else (pctDecode s).map (c :: ·)

/-- A link without query and fragment. -/
def cut (link : Bytes) : Bytes := link.takeWhile fun c => c != 0x3F && c != 0x23

/-- Removal of dot segments, which may be written with `%2e`; the first argument has what was kept, last first. -/
def dropDots : List Bytes → List Bytes → List Bytes
  | kept, [] => kept.reverse
  | kept, s :: rest =>
    if pctDecode s = some b!".." then dropDots (if rest = [] then [] :: kept.tail else kept.tail) rest
    else if pctDecode s = some b!"." then dropDots (if rest = [] then [] :: kept else kept) rest
    else dropDots (s :: kept) rest

/-- The path, without the slash at the beginning, which the server gets when a link is followed on a page with the
path `base`. -/
def follow (base link : Bytes) : Option Bytes :=
  let segs := match cut link with
    | 0x2F :: p => splitSlash p
    | p => (splitSlash base).dropLast ++ splitSlash p
  pctDecode (joinWith b!"/" (dropDots [] segs))

/-! ### Routes -/

/-- The kinds of pages (cmd/server/server.go:84-91). -/
inductive Page
  | home | test | handler | scores | warnings | guts | text | error
deriving DecidableEq

/-- What a route leads to. -/
inductive Target
  | page (p : Page)
  | scoreChart
  | barChart
  | homeSvg
  | scripts
  | style
  | exit
deriving DecidableEq

/-- A part of a route: fixed, or a parameter. -/
inductive Seg
  | lit (s : Bytes)
  | param (name : Bytes)
deriving DecidableEq

/-- The routes (cmd/server/server.go:135-149), without the slash at the beginning. -/
def routes : List (List Seg × Target) := [
  ([.lit b!"go-slog", .lit b!""], .page .home),
  ([.lit b!"go-slog", .lit b!"index.html"], .page .home),
  ([.lit b!"go-slog", .lit b!"test", .param b!"tag"], .page .test),
  ([.lit b!"go-slog", .lit b!"handler", .param b!"tag"], .page .handler),
  ([.lit b!"go-slog", .lit b!"scores", .param b!"keeper", .lit b!"summary.html"], .page .scores),
  ([.lit b!"go-slog", .lit b!"scores", .param b!"keeper", .param b!"size", .lit b!"chart.svg"], .scoreChart),
  ([.lit b!"go-slog", .lit b!"warnings.html"], .page .warnings),
  ([.lit b!"go-slog", .lit b!"guts.html"], .page .guts),
  ([.lit b!"go-slog", .lit b!"text", .param b!"tag", .lit b!"display.html"], .page .text),
  ([.lit b!"go-slog", .lit b!"error.html"], .page .error),
  ([.lit b!"go-slog", .lit b!"chart", .param b!"tag", .param b!"item"], .barChart),
  ([.lit b!"go-slog", .lit b!"home.svg"], .homeSvg),
  ([.lit b!"go-slog", .lit b!"scripts.js"], .scripts),
  ([.lit b!"go-slog", .lit b!"style.css"], .style),
  ([.lit b!"go-slog", .lit b!"exit"], .exit)]

/-- Whether a route matches, with the parameters (gin, for cmd/server/server.go:135-149). -/
def matchSegs : List Seg → List Bytes → Option (List (Bytes × Bytes))
  | [], [] => some []
  | .lit s :: r, x :: xs => if x = s then matchSegs r xs else none
  | .param n :: r, x :: xs => if x = [] then none else (matchSegs r xs).map ((n, x) :: ·)
  | _, _ => none

/-- Where a path leads (gin, for cmd/server/server.go:135-149). -/
def route (path : Bytes) : Option (Target × List (Bytes × Bytes)) :=
  routes.findSome? fun r => (matchSegs r.1 (splitSlash path)).map (r.2, ·)

/-- `c.Param(name)` (e.g. cmd/server/server.go:388). -/
def paramOf (ps : List (Bytes × Bytes)) (name : Bytes) : Bytes := (ps.lookup name).getD []

/-! ### Texts -/

/-- `TextItem` (cmd/server/text.go:11-16). -/
structure TextItem where
  name : Bytes := []
  path : Bytes := []
  summary : Bytes := []
  data : Bytes := []
deriving DecidableEq

/-- `TextCache` (cmd/server/text.go:25-29). -/
structure TextCache where
  cache : Map Bytes TextItem := []
  items : List TextItem := []
  names : List Bytes := []

/-- One round of the first loop of `NewTextCache` (cmd/server/text.go:37-49); `read` gives what is in a file, `none` if it cannot
be read; `md` is `markdown.TemplateHTML`. -/
def TextCache.load (read : Bytes → Option Bytes) (md : Bytes → Bytes) (tc : TextCache) (item : TextItem) : TextCache :=
  match read item.path with
  | none => tc
  | some data =>
    if data.length > 0 then
      { tc with cache := tc.cache.set item.name { item with data, summary := md item.summary }, names := tc.names ++ [item.name] }
    else tc

/-- `NewTextCache` (cmd/server/text.go:31-54). -/
def TextCache.new (read : Bytes → Option Bytes) (md : Bytes → Bytes) (items : List TextItem) : TextCache :=
  let tc := items.foldl (TextCache.load read md) {}
  { tc with items := tc.names.map fun name => (tc.cache.get name).getD {} }

/-- `HasText` (cmd/server/text.go:56-58). -/
def TextCache.hasText (tc : TextCache) : Bool := tc.cache.length > 0

/-- `TextItem` (cmd/server/text.go:60-72). -/
def TextCache.textItem (tc : TextCache) (path : Bytes) : TextItem :=
  match tc.cache.get path with
  | some item => item
  | none => { path, summary := b!"Text Not Found", data := b!"Path: " ++ path }

/-- The items of the program (cmd/server/server.go:171-187). -/
def texts : List TextItem := [
  { name := b!"bench.txt", path := b!"docs/bench.txt", summary := b!"Benchmark test output file" },
  { name := b!"verify.txt", path := b!"docs/verify.txt", summary := b!"Verify test output file" },
  { name := b!"tabular.txt", path := b!"docs/tabular.txt",
    summary := b!"`tabular` command output file from processing `bench.txt` and `verify.txt`" }]

/-! ### Pages -/

/-- The part of `templateData` that depends on the request (cmd/server/server.go:334-348). -/
structure Shown (κ : Type) where
  page : Page
  keeper : Option κ
  handler : Bytes := []
  test : Bytes := []
  item : Option TextItem := none
  errors : List Bytes := []

variable {κ : Type}

/-- The data a template is given (cmd/server/server.go:378-421); `get` is `score.GetKeeper`, `errs` are the errors in the
context of gin. -/
def shown (get : Bytes → Option κ) (tc : TextCache) (page : Page) (ps : List (Bytes × Bytes)) (errs : List Bytes) : Shown κ :=
  let s : Shown κ := { page, keeper := get (paramOf ps b!"keeper") }
  match page with
  | .scores => { s with keeper := s.keeper.or (get b!"Default") }
  | .test => if paramOf ps b!"tag" = [] then s else { s with test := trimSuffix (paramOf ps b!"tag") b!".html" }
  | .handler => if paramOf ps b!"tag" = [] then s else { s with handler := trimSuffix (paramOf ps b!"tag") b!".html" }
  | .home =>
    if paramOf ps b!"tag" ≠ [] then { s with item := some (tc.textItem (paramOf ps b!"tag")) }
    else { s with item := some { name := b!"<noFile>", summary := b!"No text item" } }
  | .text =>
    if paramOf ps b!"tag" ≠ [] then { s with item := some (tc.textItem (paramOf ps b!"tag")) } else s
  | .error => { s with errors := errs }
  | .warnings => s
  | .guts => s

/-- `pageFunction(page)` (cmd/server/server.go:376-435): the page sent, if any, and the errors in the context of gin; `exec` is the
template of the page. -/
def pageFunction (get : Bytes → Option κ) (tc : TextCache) (exec : Shown κ → Except Bytes Bytes) (page : Page)
    (ps : List (Bytes × Bytes)) (errs : List Bytes) : Option Bytes × List Bytes :=
  match exec (shown get tc page ps errs) with
  | .ok html => (some html, errs)
  | .error e =>
    if page = .error then (none, errs ++ [e])
    else match exec (shown get tc .error ps (errs ++ [e])) with
      | .ok html => (some html, errs ++ [e])
      | .error e' => (none, errs ++ [e] ++ [e'])

end Verif.Server
