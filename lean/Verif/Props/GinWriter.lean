import Verif.Gin.WriteLemmas
import Verif.Props.GinParse

/-
C48: the writer for the output of gin.
-/

namespace Verif.Props.GinWriter

open Verif Verif.Slog Verif.Data Verif.Gin Verif.Props.GinParse

/-- The default level of a writer. -/
def default (o : Options) : Leveler := o.level.getD (.level 0)

/-- The levels that have a function of slog. -/
inductive Standard : Leveler → Int → Prop
  | debug : Standard (.level (-4)) (-4)
  | info : Standard (.level 0) 0
  | warn : Standard (.level 4) 4
  | error : Standard (.level 8) 8

/-- What is left of a text, and at what level: no newlines at the end, up to ten prefixes in brackets, date and time. -/
def Line (o : Options) (p : Bytes) (level : Leveler) (msg : Bytes) : Prop :=
  ∃ q r, Chomped p q ∧ Reads 10 (default o) q (some (level, r)) ∧ (TimeLine r msg ∨ (¬ ∃ r', TimeLine r r') ∧ msg = r)

/-- A text with a prefix in brackets that is not known. -/
def Refused (o : Options) (p : Bytes) : Prop := ∃ q, Chomped p q ∧ Reads 10 (default o) q none

/-- C48 in full. -/
def C48_statement : Prop :=
  ∀ o p, ((newWriter o).write p).err = false →
    ∃ c, ((newWriter o).write p).calls = [c] ∧ ((newWriter o).write p).n = p.length

/-- It is false: with `Traffic.Parse`, a line that is no traffic makes two records. -/
theorem C48_fails : ¬ C48_statement := by
  intro h
  obtain ⟨c, hc, _⟩ := h { traffic := { parse := true } } b!"hello" (by decide +kernel)
  have : ((newWriter { traffic := { parse := true } }).write b!"hello").calls.length = 2 := by decide +kernel
  rw [hc] at this
  simp at this

theorem writer_level (o : Options) : (newWriter o).level = default o := by
  unfold newWriter default
  cases o.level <;> rfl

theorem standard_known {lv : Leveler} {l : Int} (h : Standard lv l) : known lv = some l := by
  cases h <;> rfl

theorem known_standard {lv : Leveler} {l : Int} (h : known lv = some l) : Standard lv l := by
  unfold known at h
  split at h
  · rename_i l'
    split at h
    · rename_i e; cases h; rw [e]; exact .debug
    · split at h
      · rename_i e; cases h; rw [e]; exact .error
      · split at h
        · rename_i e; cases h; rw [e]; exact .info
        · split at h
          · rename_i e; cases h; rw [e]; exact .warn
          · cases h
  · cases h

theorem not_standard {lv : Leveler} (h : ¬ ∃ l, Standard lv l) : known lv = none := by
  cases e : known lv with
  | none => rfl
  | some l => exact absurd ⟨l, known_standard e⟩ h

theorem line_strip {o : Options} {p msg : Bytes} {level : Leveler} (h : Line o p level msg) :
    ∃ r, strip 10 (newWriter o).level (trimNewlines p) = some (level, r) ∧ dropTime r = msg := by
  obtain ⟨q, r, hq, hr, hd⟩ := h
  refine ⟨r, ?_, (dropTime_iff _ _).2 hd⟩
  rw [(chomp_iff _ _).2 hq, writer_level]
  exact (reads_iff _ _ _ _).1 hr

theorem refused_strip {o : Options} {p : Bytes} (h : Refused o p) : strip 10 (newWriter o).level (trimNewlines p) = none := by
  obtain ⟨q, hq, hr⟩ := h
  rw [(chomp_iff _ _).2 hq, writer_level]
  exact (reads_iff _ _ _ _).1 hr

/-- Every text is refused, or has one level and one message. -/
theorem C48_line (o : Options) (p : Bytes) :
    (Refused o p ∧ ∀ l m, ¬ Line o p l m) ∨ (¬ Refused o p ∧ ∃ l m, Line o p l m ∧ ∀ l' m', Line o p l' m' → l' = l ∧ m' = m) := by
  cases e : strip 10 (default o) (trimNewlines p) with
  | none =>
    refine .inl ⟨⟨_, (chomp_iff _ _).1 rfl, (reads_iff _ _ _ _).2 e⟩, fun l m h => ?_⟩
    obtain ⟨r, h, _⟩ := line_strip h
    rw [writer_level, e] at h
    cases h
  | some x =>
    obtain ⟨l, r⟩ := x
    refine .inr ⟨fun h => ?_, l, dropTime r, ⟨_, r, (chomp_iff _ _).1 rfl, (reads_iff _ _ _ _).2 e, (dropTime_iff _ _).1 rfl⟩, fun l' m' h => ?_⟩
    · have h := refused_strip h
      rw [writer_level, e] at h
      cases h
    · obtain ⟨r', h, hd⟩ := line_strip h
      rw [writer_level, e] at h
      cases h
      exact ⟨rfl, hd.symm⟩

/-- A text that is refused makes no record. -/
theorem C48_refused (o : Options) (p : Bytes) (h : Refused o p) : (newWriter o).write p = ⟨[], 0, true⟩ := by
  unfold Writer.write
  rw [refused_strip h]

/-- Without `Traffic.Parse` there is exactly one record, with the level and the message of the line, and all bytes are consumed; or, if
the level is not one of the four standard ones, none and an error. -/
theorem C48_plain_partial (o : Options) (ho : o.traffic.parse = false) (p msg : Bytes) (level : Leveler) (h : Line o p level msg) :
    (∀ l, Standard level l → (newWriter o).write p = ⟨[⟨l, msg, []⟩], p.length, false⟩) ∧
      ((¬ ∃ l, Standard level l) → (newWriter o).write p = ⟨[], 0, true⟩) := by
  obtain ⟨r, hs, hd⟩ := line_strip h
  have hp : (newWriter o).traffic.parse = false := by
    simp only [newWriter, Traffic.defaults, ho, Bool.false_eq_true, if_false]
  unfold Writer.write
  rw [hs]
  dsimp only
  rw [hp, hd]
  simp only [Bool.false_eq_true, if_false]
  constructor
  · intro l hl
    unfold finish
    rw [standard_known hl]
    rfl
  · intro hl
    unfold finish
    rw [not_standard hl]

/-- Errors without `Traffic.Parse`: exactly for an unknown prefix or a level that is not standard. -/
theorem C48_error_partial (o : Options) (ho : o.traffic.parse = false) (p : Bytes) :
    ((newWriter o).write p).err = true ↔ Refused o p ∨ ∃ level msg, Line o p level msg ∧ ¬ ∃ l, Standard level l := by
  constructor
  · intro he
    rcases C48_line o p with ⟨h, _⟩ | ⟨_, level, msg, h, _⟩
    · exact .inl h
    · refine .inr ⟨level, msg, h, ?_⟩
      rintro ⟨l, hl⟩
      rw [(C48_plain_partial o ho p msg level h).1 l hl] at he
      cases he
  · rintro (h | ⟨level, msg, h, hn⟩)
    · rw [C48_refused o p h]
    · rw [(C48_plain_partial o ho p msg level h).2 hn]

/-- The text for parsed traffic. -/
def trafficMessage (o : Options) : Bytes := if o.traffic.message = [] then b!"Gin Traffic" else o.traffic.message

/-- The attributes of parsed traffic. -/
def trafficAttrs (o : Options) (as : List Attr) : List Attr :=
  if o.traffic.embed then as else [.grp (if o.traffic.group = [] then b!"gin" else o.traffic.group) as]

theorem defaults_parse {t : Traffic} (h : t.parse = true) : t.defaults.parse = true ∧ t.defaults.embed = t.embed ∧
    t.defaults.message = (if t.message = [] then b!"Gin Traffic" else t.message) ∧
    (t.embed = false → t.defaults.group = (if t.group = [] then b!"gin" else t.group)) := by
  unfold Traffic.defaults
  rw [if_pos h]
  dsimp only
  by_cases hl : t.level = none <;> by_cases hg : t.group = [] <;> by_cases hm : t.message = [] <;> cases he : t.embed <;>
    simp [hl, hg, hm, he, h]

/-- With `Traffic.Parse`, a line of traffic makes exactly one record: level Info, the message for traffic, and what is parsed, in a group
unless `Embed`. The level read and `Traffic.Level` do not matter. -/
theorem C48_traffic (o : Options) (ho : o.traffic.parse = true) (p msg : Bytes) (level : Leveler) (h : Line o p level msg) (as : List Attr)
    (ha : parse msg = some as) : (newWriter o).write p = ⟨[⟨0, trafficMessage o, trafficAttrs o as⟩], p.length, false⟩ := by
  obtain ⟨r, hs, hd⟩ := line_strip h
  obtain ⟨h1, h2, h3, h4⟩ := defaults_parse ho
  have e : (newWriter o).traffic = o.traffic.defaults := rfl
  unfold Writer.write
  rw [hs]
  dsimp only
  rw [e, hd, ha, h1, h2, h3]
  simp only [if_true]
  unfold finish trafficMessage trafficAttrs
  cases he : o.traffic.embed with
  | true => rfl
  | false =>
    rw [h4 he]
    rfl

/-- With `Traffic.Parse`, any other line makes a record at level Debug that says so, and then the record as without (or an error, if
the level is not standard). -/
theorem C48_not_traffic_partial (o : Options) (ho : o.traffic.parse = true) (p msg : Bytes) (level : Leveler) (h : Line o p level msg)
    (ha : parse msg = none) :
    (∀ l, Standard level l → (newWriter o).write p = ⟨[⟨-4, b!"gin traffic parse", []⟩, ⟨l, msg, []⟩], p.length, false⟩) ∧
      ((¬ ∃ l, Standard level l) → (newWriter o).write p = ⟨[⟨-4, b!"gin traffic parse", []⟩], 0, true⟩) := by
  obtain ⟨r, hs, hd⟩ := line_strip h
  obtain ⟨h1, -⟩ := defaults_parse ho
  have e : (newWriter o).traffic = o.traffic.defaults := rfl
  unfold Writer.write
  rw [hs]
  dsimp only
  rw [e, hd, ha, h1]
  simp only [if_true]
  constructor
  · intro l hl
    unfold finish
    rw [standard_known hl]
    rfl
  · intro hl
    unfold finish
    rw [not_standard hl]
    rfl

/-- Without an error all bytes are consumed and the last record is the one for the line. -/
theorem C48_success (o : Options) (p : Bytes) (h : ((newWriter o).write p).err = false) :
    ((newWriter o).write p).n = p.length ∧
      (((newWriter o).write p).calls.length = 1 ∨
        (o.traffic.parse = true ∧ ∃ c, ((newWriter o).write p).calls = [⟨-4, b!"gin traffic parse", []⟩, c])) := by
  rcases C48_line o p with ⟨hr, _⟩ | ⟨_, level, msg, hl, _⟩
  · rw [C48_refused o p hr] at h; cases h
  · cases ho : o.traffic.parse with
    | false =>
      obtain ⟨h1, h2⟩ := C48_plain_partial o ho p msg level hl
      by_cases hs : ∃ l, Standard level l
      · obtain ⟨l, hs⟩ := hs
        rw [h1 l hs]
        exact ⟨rfl, .inl rfl⟩
      · rw [h2 hs] at h; cases h
    | true =>
      cases ha : parse msg with
      | some as =>
        rw [C48_traffic o ho p msg level hl as ha]
        exact ⟨rfl, .inl rfl⟩
      | none =>
        obtain ⟨h1, h2⟩ := C48_not_traffic_partial o ho p msg level hl ha
        by_cases hs : ∃ l, Standard level l
        · obtain ⟨l, hs⟩ := hs
          rw [h1 l hs]
          exact ⟨rfl, .inr ⟨rfl, _, rfl⟩⟩
        · rw [h2 hs] at h; cases h

/-! ### What gin prints -/

/-- A line of traffic, with date and time. -/
def ginTraffic (time : Bytes) (code : Nat) (elapsed client method path : Bytes) : Bytes :=
  b!"[GIN] " ++ time ++ ginLine code elapsed client method (b!"\"" ++ path ++ b!"\"") ++ b!"\n"

theorem getLast_digit {y : Bytes} {s : Bytes} (hs : s ≠ []) : (y ++ s).getLast? = s.getLast? := by
  rw [List.getLast?_append]
  cases h : s.getLast? with
  | none => exact absurd (List.getLast?_eq_none_iff.1 h) hs
  | some a => rfl

/-- Every request gin reports in its default format comes out as one record with its fields, for texts as in C47 and on one line. -/
theorem C48_gin_request_partial (o : Options) (ho : o.traffic.parse = true) (time : Bytes) (ht : TimePrefix time)
    (ht0 : ∀ x t, time = x :: t → isS x = false) (code : Nat) (elapsed client method path : Bytes)
    (hc : code < 2 ^ 63) (he : Plain elapsed ∧ 0x0A ∉ elapsed) (hcl : Plain client ∧ 0x0A ∉ client) (hm : 0x7C ∉ method ∧ ∀ a ∈ method, isS a = false)
    (hm0 : method ≠ []) (hp : 0x7C ∉ path ∧ ∀ a ∈ path, isS a = false) (hq : path.head? ≠ some 0x22 ∧ path.getLast? ≠ some 0x22) :
    (newWriter o).write (ginTraffic time code elapsed client method path) =
      ⟨[⟨0, trafficMessage o, trafficAttrs o (fields code elapsed client ++ request method path)⟩],
        (ginTraffic time code elapsed client method path).length, false⟩ := by
  have hdig : ∀ a ∈ decNat code, isD a = true := by
    have := decNat_digits code
    rw [List.all_eq_true] at this
    exact this
  have hd0 : decNat code ≠ [] := by rw [decNat]; split <;> simp
  have hspaces : ∀ k, Blank (List.replicate k 0x20) := by
    intro k a ha
    rw [(List.mem_replicate.1 ha).2]
    decide
  have hnl : ∀ k, 0x0A ∉ List.replicate k (0x20 : UInt8) := by
    intro k h
    exact absurd (List.mem_replicate.1 h).2 (by decide)
  have nb : ∀ s : Bytes, (∀ a ∈ s, isS a = false) → 0x0A ∉ s := by
    intro s h h'
    exact absurd (h _ h') (by decide)
  let rest := ginRest elapsed client method (b!"\"" ++ path ++ b!"\"")
  have eline : ginLine code elapsed client method (b!"\"" ++ path ++ b!"\"") = List.replicate (1 + (3 - (decNat code).length)) 0x20 ++ (decNat code ++ rest) := by
    rw [← List.replicate_append_replicate]
    simp only [ginLine, rest, ginRest, padLeft, List.append_assoc]
    rfl
  have hrest : 0x0A ∉ rest := by
    simp only [rest, ginRest, padLeft, padRight, List.mem_append, not_or]
    refine ⟨⟨⟨⟨⟨⟨⟨by decide, hnl _, he.2⟩, by decide⟩, hnl _, hcl.2⟩, by decide⟩, nb _ hm.2, hnl _⟩, by decide⟩, ⟨by decide, nb _ hp.2⟩, by decide⟩
  have hlast : ∀ s : Bytes, (s ++ (decNat code ++ rest)).getLast? = some 0x22 := by
    intro s
    simp only [rest, ginRest]
    rw [← List.append_assoc, ← List.append_assoc, ← List.append_assoc, List.getLast?_append]
    simp
  have htag : Tagged (b!"[GIN] " ++ (time ++ (List.replicate (1 + (3 - (decNat code).length)) 0x20 ++ (decNat code ++ rest)))) b!"GIN"
      (time ++ (List.replicate (1 + (3 - (decNat code).length)) 0x20 ++ (decNat code ++ rest))) := by
    refine ⟨[], b!" ", rfl, by simp [Blank], by decide, ?_⟩
    cases htime : time with
    | nil =>
      subst htime
      obtain ⟨b0, y, b1, mo, d, b2, b3, h, mi, sec, e, _⟩ := ht
      have := congrArg List.length e
      simp at this
    | cons a time' =>
      rintro x t e
      cases e
      exact ht0 a time' htime
  have hline : Line o (ginTraffic time code elapsed client method path) (default o) (decNat code ++ rest) := by
    refine ⟨b!"[GIN] " ++ (time ++ (List.replicate (1 + (3 - (decNat code).length)) 0x20 ++ (decNat code ++ rest))),
      time ++ (List.replicate (1 + (3 - (decNat code).length)) 0x20 ++ (decNat code ++ rest)), ⟨⟨1, ?_⟩, ?_⟩, .keep htag .gin (.stop ?_), .inl ?_⟩
    · rw [ginTraffic, eline]
      simp
    · rw [← List.append_assoc, ← List.append_assoc, hlast]
      decide
    · rintro ⟨a, t, u, e, ha, _⟩
      obtain ⟨b0, y, b1, mo, d, b2, b3, h, mi, sec, e', h0, hy, _⟩ := ht
      subst e'
      have hb0 : b0 = [] := by
        cases b0 with
        | nil => rfl
        | cons c b0 =>
          have h1 := ht0 c _ rfl
          rw [h0 c (by simp)] at h1
          cases h1
      subst hb0
      obtain ⟨hy0, hy⟩ := hy
      cases y with
      | nil => exact absurd rfl hy0
      | cons c y =>
        have hc := hy c (by simp)
        cases a with
        | nil =>
          simp only [List.nil_append, List.cons_append, List.cons.injEq] at e
          rw [e.1] at hc
          exact absurd hc (by decide)
        | cons c' a =>
          simp only [List.nil_append, List.cons_append, List.cons.injEq] at e
          have h1 := space_digit c' (ha c' (by simp))
          rw [← e.1, hc] at h1
          cases h1
    · refine ⟨time, _, by rw [List.append_assoc], ht, hspaces _, ⟨by simp [hd0], ?_⟩, .inl ?_⟩
      · intro a ha
        rcases List.mem_append.1 ha with ha | ha
        · have := hdig a ha
          cases e : isDot a with
          | true => rfl
          | false =>
            have : a = 0x0A := by simpa [isDot] using e
            subst this
            exact absurd (hdig _ ha) (by decide)
        · cases e : isDot a with
          | true => rfl
          | false =>
            have : a = 0x0A := by simpa [isDot] using e
            subst this
            exact absurd ha hrest
      · exact digit_first ⟨hd0, hdig⟩
  refine C48_traffic o ho _ _ _ hline _ ?_
  have := gin_lead 0 code elapsed client method path hc he.1 hcl.1 hm hm0 hp hq
  exact this

/-- The example of gin/writer.go:140. -/
example : ginTraffic b!"2024/01/26 - 13:21:32 |" 200 b!"5.529751605s" b!"::1" b!"GET" b!"/chart.svg?tag=With_Attrs_Attributes&item=MemBytes" =
    b!"[GIN] 2024/01/26 - 13:21:32 | 200 |  5.529751605s |             ::1 | GET      \"/chart.svg?tag=With_Attrs_Attributes&item=MemBytes\"\n" := by
  decide +kernel

example : TimePrefix b!"2024/01/26 - 13:21:32 |" :=
  ⟨[], b!"2024", b!" ", b!"01", b!"26", b!" ", b!" ", b!"13", b!"21", b!"32", rfl, by decide, ⟨by decide, by decide⟩, ⟨by decide, by decide⟩,
    ⟨by decide, by decide⟩, by decide, by decide, ⟨by decide, by decide⟩, ⟨by decide, by decide⟩, ⟨by decide, by decide⟩, by decide⟩

/-- The usual warning of gin. -/
example : Line {} b!"[GIN-debug] [WARNING] Running in \"debug\" mode.\n\n" (.level 4) b!"Running in \"debug\" mode." := by
  exact ⟨b!"[GIN-debug] [WARNING] Running in \"debug\" mode.", b!"Running in \"debug\" mode.", (chomp_iff _ _).1 (by decide +kernel),
    (reads_iff _ _ _ _).2 (by decide +kernel), (dropTime_iff _ _).1 (by decide +kernel)⟩

/-- What gin prints after a panic is refused: text in brackets that is no level. -/
example : Refused {} b!"[Recovery] 2024/01/26 - 13:21:32 panic recovered:\n" :=
  ⟨_, (chomp_iff _ _).1 rfl, (reads_iff _ _ _ _).2 (by decide +kernel)⟩

/-- A level between the standard ones, or in a `LevelVar`: no record. -/
example : ((newWriter { level := some (.level 2) }).write b!"hello").err = true ∧ ((newWriter { level := some (.other 1) }).write b!"hello").err = true ∧
    ((newWriter { level := some (.level 2) }).write b!"[INFO] hello").err = false := by decide +kernel

/-- A request with an error: the text has two lines, the time stays and nothing is parsed. -/
example : ((newWriter { traffic := { parse := true } }).write
    b!"[GIN] 2024/01/26 - 13:21:32 | 500 | 1s | ::1 | GET \"/\"\nError #01: x\n").calls.map (·.message) =
    [b!"gin traffic parse", b!"2024/01/26 - 13:21:32 | 500 | 1s | ::1 | GET \"/\"\nError #01: x"] := by decide +kernel

end Verif.Props.GinWriter
