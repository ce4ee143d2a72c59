import Verif.Slog
import Verif.Data.BenchParser

/-
The parser of gin traffic lines: gin/parser.go.
-/

namespace Verif.Gin

open Verif.Slog Verif.Data

/-- `strings.Split(s, sep)` for a single byte (package strings). -/
def splitOn (sep : UInt8) : Bytes → List Bytes
  | [] => [[]]
  | a :: s =>
    if a = sep then [] :: splitOn sep s
    else match splitOn sep s with
      | [] => [[a]]
      | w :: ws => (a :: w) :: ws

/-- `strings.Trim(s, cutset)` for a single byte (package strings). -/
def trim (c : UInt8) (s : Bytes) : Bytes := ((s.dropWhile (· == c)).reverse.dropWhile (· == c)).reverse

/-- `ptnCode` (gin/parser.go:23). -/
def ptnCode : Re := seq [.star isS, .cap 1 (plus isD), .star isS, .eot]

/-- White space comes first. -/
def startsS : Bytes → Bool
  | [] => false
  | a :: _ => isS a

/-- `ptnSplit.Split(s, -1)` (gin/parser.go:24, 53): what is before, between and after stretches of white
space. -/
def splitS : Bytes → List Bytes
  | [] => [[]]
  | a :: s =>
    if isS a then
      if startsS s then splitS s else [] :: splitS s
    else match splitS s with
      | [] => [[a]]
      | w :: ws => (a :: w) :: ws

/-- `strconv.ParseInt(s, 10, 64)` of digits (package strconv). -/
def parseInt64 (s : Bytes) : Option Nat :=
  match readNat s with
  | some n => if n < 2 ^ 63 then some n else none
  | none => none

/-- Method and URL from the fourth part (gin/parser.go:50-57). -/
def requestAttrs (part : Bytes) : List Attr :=
  match splitS (trim 0x20 part) with
  | [method, url] => [.mk b!"method" (.string method), .mk b!"url" (.string (trim 0x22 url))]
  | _ => []

/-- `Parse` (gin/parser.go:29-59); `none` is an error. -/
def parse (message : Bytes) : Option (List Attr) :=
  match splitOn 0x7C message with
  | [p0, p1, p2, p3] =>
    match ptnCode.find p0 with
    | none => none
    | some m =>
      match parseInt64 (Caps.text m 1) with
      | none => none
      | some num =>
        some ([.mk b!"code" (.int64 num), .mk b!"elapsed" (.string (trim 0x20 p1)), .mk b!"client" (.string (trim 0x20 p2))] ++
          requestAttrs p3)
  | _ => none

end Verif.Gin
