import Verif.Server.Chart
import Verif.Tools.Enum

/-
The cache of charts of the server: cmd/server/chart/cache.go, cmd/server/chart/bar.go and
cmd/server/chart/score.go, for any number of requests served at the same time.

Each request runs in a goroutine. The mutex is held for one access to the map each time, so that each access is one
step; what is done between them touches no shared state apart from the data of the server, which does not change once
the server runs.

Simplified: drawing is not modelled, its outcome is given to the step (it depends on the order of maps); which
tags have records and which keepers are known is given.
-/

namespace Verif.Server

open Verif.Go Verif.Slog Verif.Tools

/-- The parameters of a URL (cmd/server/server.go:140, 146). -/
inductive Req
  | bar (tag item : Bytes)
  | score (keeper size : Bytes)
deriving DecidableEq

/-- What the data of the server say: for which tags there are records, and which keepers there are. -/
structure Known where
  records : Bytes → Bool
  keepers : Bytes → Bool

/-- `strings.TrimSuffix`. -/
def trimSuffix (s suffix : Bytes) : Bytes := if s.drop (s.length - suffix.length) = suffix then s.take (s.length - suffix.length) else s

/-- The key of a bar chart (cmd/server/chart/bar.go:24). -/
def barKey (tag : Bytes) (item : Nat) : Bytes := tag ++ b!":" ++ benchItems.string item

/-- The key of a score chart (cmd/server/chart/score.go:124-125). -/
def scoreKey (keeper : Bytes) (size : Int) : Bytes := b!"score:" ++ keeper ++ b!":" ++ decInt size

/-- What is sent: nothing, an error page, a chart (status 200 with these bytes), or what the recovery of gin sends. -/
inductive Reply
  | nothing
  | bad
  | data (ch : Bytes)
  | panic
deriving DecidableEq

/-- The chart that is drawn: what of the parameters is kept in variables (cmd/server/chart/bar.go:17-23,
cmd/server/chart/score.go:123, 129-130). -/
inductive Picture
  | bar (tag : Bytes) (item : Nat)
  | score (keeper : Bytes) (size : Int)
deriving DecidableEq

/-- Where a request is. -/
inductive Thread
  | start (r : Req)
  /-- After the first access to the map. -/
  | looked (r : Req) (p : Picture) (key : Bytes) (found : Option Bytes)
  /-- The chart is made, and is to be stored. -/
  | made (r : Req) (p : Picture) (key ch : Bytes)
  | done (r : Req) (reply : Reply)
deriving DecidableEq

/-- The cache (cmd/server/chart/cache.go:5-8) and the requests. -/
structure Site where
  cache : Map Bytes Bytes := []
  threads : List Thread := []

/-- One step of a request: `draw` is the outcome of drawing, if the step draws; the second component is what
is stored in the cache. -/
def Thread.step (L : Replace.Lib) (k : Known) (cache : Map Bytes Bytes) (draw : Picture → Option Bytes) : Thread → Thread × Option (Bytes × Bytes)
  | .start (.bar tag item) =>
    -- cmd/server/chart/bar.go:16-27
    match benchItems.parse L (trimSuffix item b!".svg") with
    | none => (.done (.bar tag item) .nothing, none)
    | some i => (.looked (.bar tag item) (.bar tag i) (barKey tag i) (cache.get (barKey tag i)), none)
  | .start (.score keeper size) =>
    -- cmd/server/chart/score.go:123-128
    let n := scoreChartSize size
    (.looked (.score keeper size) (.score keeper n) (scoreKey keeper n) (cache.get (scoreKey keeper n)), none)
  | .looked r (.bar tag item) key found =>
    -- cmd/server/chart/bar.go:28-69, 74
    match found with
    | some ch => (.done r (.data ch), none)
    | none =>
      if k.records tag then
        match draw (.bar tag item) with
        | some ch => (.made r (.bar tag item) key ch, none)
        | none => (.done r .panic, none)
      else (.done r .bad, none)
  | .looked r (.score keeper size) key found =>
    -- cmd/server/chart/score.go:129-137, 143; without a keeper `newChartData` panics
    if k.keepers keeper then
      match found with
      | some ch => (.done r (.data ch), none)
      | none =>
        match draw (.score keeper size) with
        | some ch => (.made r (.score keeper size) key ch, none)
        | none => (.done r (.data []), none)
    else (.done r .panic, none)
  | .made r _ key ch =>
    -- cmd/server/chart/bar.go:70-74, cmd/server/chart/score.go:138-143
    (.done r (.data ch), some (key, ch))
  | .done r reply => (.done r reply, none)

/-- What happens: a request comes in, or one of the requests takes a step. -/
inductive Happens
  | arrive (r : Req)
  | step (i : Nat) (draw : Picture → Option Bytes)

/-- What is in the cache after a step (cmd/server/chart/bar.go:71, cmd/server/chart/score.go:139). -/
def stored (cache : Map Bytes Bytes) : Option (Bytes × Bytes) → Map Bytes Bytes
  | some (key, ch) => cache.set key ch
  | none => cache

/-- What a happening does (cmd/server/chart/cache.go:5-8 is shared by all). -/
def Site.happens (L : Replace.Lib) (k : Known) (s : Site) : Happens → Site
  | .arrive r => { s with threads := s.threads ++ [.start r] }
  | .step i draw =>
    match s.threads[i]? with
    | none => s
    | some t => { cache := stored s.cache (t.step L k s.cache draw).2, threads := s.threads.set i (t.step L k s.cache draw).1 }

/-- A history. -/
def Site.run (L : Replace.Lib) (k : Known) (s : Site) (hs : List Happens) : Site := hs.foldl (Site.happens L k) s

end Verif.Server
