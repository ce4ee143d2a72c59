import Verif.Gin.ParseLemmas
import Verif.Spec.Numeral

/-
C47: the parser of gin traffic lines.
-/

namespace Verif.Props.GinParse

open Verif Verif.Slog Verif.Data Verif.Gin

/-- Code, elapsed time and client of a line. -/
def fields (n : Nat) (elapsed client : Bytes) : List Attr :=
  [.mk b!"code" (.int64 n), .mk b!"elapsed" (.string elapsed), .mk b!"client" (.string client)]

/-- Method and URL. -/
def request (method url : Bytes) : List Attr := [.mk b!"method" (.string method), .mk b!"url" (.string url)]

/-- C47 in full: exactly the lines of four parts of which the first is a number are accepted, and all five fields are returned. -/
def C47_statement : Prop :=
  ∀ m p0 p1 p2 p3 n, Four m p0 p1 p2 p3 → Code p0 n →
    ∃ elapsed client method url, parse m = some (fields n elapsed client ++ request method url)

/-- It is false: a URL with a blank, or text after the URL, and method and URL are left out. -/
theorem C47_fails : ¬ C47_statement := by
  intro h
  obtain ⟨e, c, me, u, hp⟩ := h b!" 200 | 1s | ::1 | GET \"/a b\"" b!" 200 " b!" 1s " b!" ::1 " b!" GET \"/a b\"" 200
    ((four_iff _ _ _ _ _).1 (by decide +kernel)) ⟨b!" ", b!"200", b!" ", rfl, by decide, ⟨by decide, by decide⟩, by decide, by decide, by decide⟩
  have : (parse b!" 200 | 1s | ::1 | GET \"/a b\"").map List.length = some 3 := by decide +kernel
  rw [hp] at this
  simp [fields, request] at this

/-- What is returned for every line. Accepted are exactly the lines with three bars whose first part is a decimal number of 63 bits with
white space around; elapsed time and client are the next two parts without the spaces around; and if the last part, without the
spaces around, is two texts with white space between, there are method and URL, the latter without quotes at the ends. -/
theorem C47_parse_iff_partial (m : Bytes) (as : List Attr) :
    parse m = some as ↔ ∃ p0 p1 p2 p3 n elapsed client r rest,
      Four m p0 p1 p2 p3 ∧ Code p0 n ∧ Trimmed 0x20 p1 elapsed ∧ Trimmed 0x20 p2 client ∧ Trimmed 0x20 p3 r ∧
        as = fields n elapsed client ++ rest ∧
        ((∃ method u url, TwoFields r method u ∧ Trimmed 0x22 u url ∧ rest = request method url) ∨
          ((¬ ∃ method u, TwoFields r method u) ∧ rest = [])) := by
  have rq : ∀ p3 r rest, Trimmed 0x20 p3 r → (requestAttrs p3 = rest ↔
      ((∃ method u url, TwoFields r method u ∧ Trimmed 0x22 u url ∧ rest = request method url) ∨
          ((¬ ∃ method u, TwoFields r method u) ∧ rest = []))) := by
    intro p3 r rest hr
    rw [← trim_iff] at hr
    subst hr
    unfold requestAttrs
    by_cases h2 : ∃ method u, TwoFields (trim 0x20 p3) method u
    · obtain ⟨me, u, h2⟩ := h2
      rw [(two_iff _ _ _).2 h2]
      dsimp only
      constructor
      · rintro rfl
        exact .inl ⟨me, u, _, h2, (trim_iff _ _ _).1 rfl, rfl⟩
      · rintro (⟨me', u', url, h3, h4, rfl⟩ | ⟨h3, _⟩)
        · rw [← two_iff] at h2 h3
          rw [h2] at h3
          cases h3
          rw [(trim_iff _ _ _).2 h4]
          rfl
        · exact absurd ⟨me, u, h2⟩ h3
    · have : requestAttrs p3 = [] := by
        unfold requestAttrs
        split
        · rename_i me u e
          exact absurd ⟨me, u, (two_iff _ _ _).1 e⟩ h2
        · rfl
      unfold requestAttrs at this
      rw [this]
      constructor
      · rintro rfl; exact .inr ⟨h2, rfl⟩
      · rintro (⟨me, u, _, h3, _⟩ | ⟨_, rfl⟩)
        · exact absurd ⟨me, u, h3⟩ h2
        · rfl
  constructor
  · intro h
    unfold parse at h
    split at h
    · rename_i p0 p1 p2 p3 e
      split at h
      · cases h
      · rename_i c hc
        split at h
        · cases h
        · rename_i n hn
          simp only [Option.some.injEq] at h
          refine ⟨p0, p1, p2, p3, n, _, _, _, requestAttrs p3, (four_iff _ _ _ _ _).1 e, (code_iff _ _).1 ⟨c, hc, hn⟩, (trim_iff _ _ _).1 rfl,
            (trim_iff _ _ _).1 rfl, (trim_iff _ _ _).1 rfl, ?_, (rq p3 _ _ ((trim_iff _ _ _).1 rfl)).1 rfl⟩
          rw [← h]
          rfl
    · cases h
  · rintro ⟨p0, p1, p2, p3, n, elapsed, client, r, rest, h4, hc, h1, h2, h3, rfl, hr⟩
    obtain ⟨c, hc, hn⟩ := (code_iff _ _).2 hc
    unfold parse
    rw [(four_iff _ _ _ _ _).2 h4]
    dsimp only
    rw [hc]
    dsimp only
    rw [hn]
    dsimp only
    rw [(trim_iff _ _ _).2 h1, (trim_iff _ _ _).2 h2, (rq p3 r rest h3).2 hr]
    rfl

/-- Lines are accepted exactly if there are four parts of which the first is a number. -/
theorem C47_accepts (m : Bytes) : (parse m).isSome = true ↔ ∃ p0 p1 p2 p3 n, Four m p0 p1 p2 p3 ∧ Code p0 n := by
  rw [Option.isSome_iff_exists]
  constructor
  · rintro ⟨as, h⟩
    obtain ⟨p0, p1, p2, p3, n, _, _, _, _, h1, h2, _⟩ := (C47_parse_iff_partial m as).1 h
    exact ⟨p0, p1, p2, p3, n, h1, h2⟩
  · rintro ⟨p0, p1, p2, p3, n, h1, h2⟩
    by_cases h3 : ∃ method u, TwoFields (trim 0x20 p3) method u
    · obtain ⟨me, u, h3⟩ := h3
      exact ⟨_, (C47_parse_iff_partial m _).2 ⟨p0, p1, p2, p3, n, _, _, _, _, h1, h2, (trim_iff _ _ _).1 rfl, (trim_iff _ _ _).1 rfl, (trim_iff _ _ _).1 rfl, rfl,
        .inl ⟨me, u, _, h3, (trim_iff _ _ _).1 rfl, rfl⟩⟩⟩
    · exact ⟨_, (C47_parse_iff_partial m _).2 ⟨p0, p1, p2, p3, n, _, _, _, _, h1, h2, (trim_iff _ _ _).1 rfl, (trim_iff _ _ _).1 rfl, (trim_iff _ _ _).1 rfl, rfl,
        .inr ⟨h3, rfl⟩⟩⟩

/-! ### What gin prints -/

/-- `%13v` and the like: spaces before. -/
def padLeft (k : Nat) (s : Bytes) : Bytes := List.replicate (k - s.length) 0x20 ++ s
/-- `%-7s`: spaces after. -/
def padRight (k : Nat) (s : Bytes) : Bytes := s ++ List.replicate (k - s.length) 0x20

/-- A line of gin's default format after the time, as the comments in gin/parser.go:31 and gin/writer.go:140, 150 show it:
`" %3d | %13v | %15s | %-7s  %#v"`. -/
def ginLine (code : Nat) (elapsed client method quoted : Bytes) : Bytes :=
  b!" " ++ padLeft 3 (decNat code) ++ b!" | " ++ padLeft 13 elapsed ++ b!" | " ++ padLeft 15 client ++ b!" | " ++ padRight 7 method ++ b!"  " ++ quoted

/-- A text that is printed as it is: no bar, and no space at the ends. -/
def Plain (s : Bytes) : Prop := 0x7C ∉ s ∧ s.head? ≠ some 0x20 ∧ s.getLast? ≠ some 0x20

instance (s : Bytes) : Decidable (Plain s) := by unfold Plain; infer_instance

/-- The part after the code. -/
def ginRest (elapsed client method quoted : Bytes) : Bytes :=
  b!" | " ++ padLeft 13 elapsed ++ b!" | " ++ padLeft 15 client ++ b!" | " ++ padRight 7 method ++ b!"  " ++ quoted

/-- Any number of spaces may come first. -/
theorem gin_lead (k code : Nat) (elapsed client method path : Bytes) (hc : code < 2 ^ 63) (he : Plain elapsed) (hcl : Plain client)
    (hm : 0x7C ∉ method ∧ ∀ a ∈ method, isS a = false) (hm0 : method ≠ []) (hp : 0x7C ∉ path ∧ ∀ a ∈ path, isS a = false)
    (hq : path.head? ≠ some 0x22 ∧ path.getLast? ≠ some 0x22) :
    parse (List.replicate k 0x20 ++ decNat code ++ ginRest elapsed client method (b!"\"" ++ path ++ b!"\"")) =
      some (fields code elapsed client ++ request method path) := by
  have hdig : ∀ a ∈ decNat code, isD a = true := by
    have := decNat_digits code
    rw [List.all_eq_true] at this
    exact this
  have hbar : ∀ (k : Nat), 0x7C ∉ List.replicate k (0x20 : UInt8) := by
    intro k h
    have := (List.mem_replicate.1 h).2
    exact absurd this (by decide)
  have hblank : ∀ (k : Nat), ∀ a ∈ List.replicate k (0x20 : UInt8), isS a = true := by
    intro k a h
    rw [(List.mem_replicate.1 h).2]
    decide
  have hspace : b!" " = List.replicate 1 (0x20 : UInt8) := rfl
  refine (C47_parse_iff_partial _ _).2 ⟨List.replicate k 0x20 ++ decNat code ++ b!" ", b!" " ++ padLeft 13 elapsed ++ b!" ",
    b!" " ++ padLeft 15 client ++ b!" ", b!" " ++ padRight 7 method ++ b!"  " ++ (b!"\"" ++ path ++ b!"\""), code, elapsed, client,
    padRight 7 method ++ b!"  " ++ (b!"\"" ++ path ++ b!"\""), request method path, ⟨?_, ?_, ?_, ?_, ?_⟩, ?_, ?_, ?_, ?_, rfl,
    .inl ⟨method, b!"\"" ++ path ++ b!"\"", path, ?_, ?_, rfl⟩⟩
  · simp [ginRest, List.append_assoc]
  · simp only [List.mem_append, not_or]
    refine ⟨⟨hbar _, ?_⟩, by decide⟩
    intro h
    exact absurd (hdig _ h) (by decide)
  · simp only [padLeft, List.mem_append, not_or]
    exact ⟨⟨by decide, hbar _, he.1⟩, by decide⟩
  · simp only [padLeft, List.mem_append, not_or]
    exact ⟨⟨by decide, hbar _, hcl.1⟩, by decide⟩
  · simp only [padRight, List.mem_append, not_or]
    exact ⟨⟨⟨by decide, hm.1, hbar _⟩, by decide⟩, ⟨by decide, hp.1⟩, by decide⟩
  · refine ⟨List.replicate k 0x20, decNat code, b!" ", rfl, hblank _, ⟨?_, hdig⟩, by decide, readNat_decNat code, hc⟩
    rw [decNat]; split <;> simp
  · exact ⟨⟨1 + (13 - elapsed.length), 1, by rw [hspace, padLeft, ← List.append_assoc, List.replicate_append_replicate]⟩, he.2⟩
  · exact ⟨⟨1 + (15 - client.length), 1, by rw [hspace, padLeft, ← List.append_assoc, List.replicate_append_replicate]⟩, hcl.2⟩
  · refine ⟨⟨1, 0, by simp [List.append_assoc]⟩, ?_, ?_⟩
    · cases method with
      | nil => exact absurd rfl hm0
      | cons a me =>
        simp only [padRight, List.cons_append, List.head?_cons, ne_eq, Option.some.injEq]
        rintro rfl
        exact absurd (hm.2 0x20 (by simp)) (by decide)
    · rw [← List.append_assoc, ← List.append_assoc, List.getLast?_append]
      simp
  · refine ⟨List.replicate (7 - method.length) 0x20 ++ b!"  ", by simp [padRight, List.append_assoc], ⟨by simp, ?_⟩, hm.2, ?_⟩
    · intro x hx
      rcases List.mem_append.1 hx with hx | hx
      · exact hblank _ x hx
      · exact (by decide : ∀ x ∈ b!"  ", isS x = true) x hx
    · intro x hx
      rcases List.mem_append.1 hx with hx | hx
      · rcases List.mem_append.1 hx with hx | hx
        · exact (by decide : ∀ x ∈ b!"\"", isS x = false) x hx
        · exact hp.2 x hx
      · exact (by decide : ∀ x ∈ b!"\"", isS x = false) x hx
  · exact ⟨⟨1, 1, rfl⟩, hq⟩

/-- Lines in gin's default format are read back, for a method and a path without bars or white space, the path without quotes at the
ends and printed by `%#v` with only quotes added. -/
theorem C47_gin_format_partial (code : Nat) (elapsed client method path : Bytes) (hc : code < 2 ^ 63) (he : Plain elapsed) (hcl : Plain client)
    (hm : 0x7C ∉ method ∧ ∀ a ∈ method, isS a = false) (hm0 : method ≠ []) (hp : 0x7C ∉ path ∧ ∀ a ∈ path, isS a = false)
    (hq : path.head? ≠ some 0x22 ∧ path.getLast? ≠ some 0x22) :
    parse (ginLine code elapsed client method (b!"\"" ++ path ++ b!"\"")) = some (fields code elapsed client ++ request method path) := by
  have h := gin_lead (1 + (3 - (decNat code).length)) code elapsed client method path hc he hcl hm hm0 hp hq
  rw [← List.replicate_append_replicate] at h
  rw [← h]
  simp only [ginLine, ginRest, padLeft, List.append_assoc]
  rfl

/-- The example line of the comment in gin/parser.go:31. -/
example : ginLine 200 b!"9.522199ms" b!"::1" b!"GET" b!"\"/chart.svg?tag=samber_zap&item=MemAllocs\"" =
    b!" 200 |    9.522199ms |             ::1 | GET      \"/chart.svg?tag=samber_zap&item=MemAllocs\"" := by decide +kernel

example : Plain b!"9.522199ms" ∧ Plain b!"::1" := by decide

/-- What gin prints for a path with a bar or a blank (it prints paths decoded), or with an error message on the next line, is not read
back in full. -/
example : parse (ginLine 200 b!"1s" b!"::1" b!"GET" b!"\"/a|b\"") |>.isNone := by decide +kernel

example : (parse (ginLine 200 b!"1s" b!"::1" b!"GET" b!"\"/a b\"")).map List.length = some 3 ∧
    (parse (ginLine 500 b!"1s" b!"::1" b!"GET" b!"\"/a\"\nError #01: x")).map List.length = some 3 := by decide +kernel

end Verif.Props.GinParse
