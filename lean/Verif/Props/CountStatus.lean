import Verif.Count.Status

/-
C101: the status text of the field counter shows where it is.
-/

namespace Verif.Props.CountStatus
open Go Count

/-- `runes` are the runes of `s` up to `t`. -/
inductive Runes : Bytes → List Nat → Bytes → Prop
  | nil (s : Bytes) : Runes s [] s
  | cons {s t : Bytes} {r w : Nat} {l : List Nat} : decodeRune s = some (r, w) → Runes (s.drop w) l t → Runes s (r :: l) t

/-- How a rune is shown. -/
def shownAs (r : Nat) : Nat := if r = 0x0A then 0x20 else r

/-- Runes as text. -/
def textOf (l : List Nat) : Bytes := l.flatMap fun r => Utf8.encode (shownAs r)

theorem Runes.snoc {s t : Bytes} {l : List Nat} {r w : Nat} (h : Runes s l t) (hd : decodeRune t = some (r, w)) :
    Runes s (l ++ [r]) (t.drop w) := by
  induction h with
  | nil s => exact .cons hd (.nil _)
  | cons hd' _ ih => exact .cons hd' (ih hd)

/-- Where the counter is: `old` has been read, and of it the last runes are kept. -/
structure At (src : Bytes) (c : Ctr) (old : List Nat) : Prop where
  runes : Runes src old c.rest
  loc : c.loc = old.length
  kept : c.recent <:+ old.map shownAs
  most : c.recent.length ≤ 15
  least : (if c.prev = none then min 10 old.length else min 11 old.length) ≤ c.recent.length
  back : ∀ s, c.prev = some s → ∃ init r, old = init ++ [r] ∧ Runes src init s

theorem at_read {src : Bytes} {c : Ctr} {old : List Nat} (h : At src c old) : ∃ old', At src (readRune c).1 old' := by
  have hr : ∀ r : Nat, (if r = 0x0A then 0x20 else r) = shownAs r := fun _ => rfl
  unfold readRune
  simp only [hr]
  split
  · refine ⟨old, h.runes, h.loc, h.kept, h.most, ?_, fun s e => by cases e⟩
    have := h.least
    simp only [if_true]
    split at this <;> omega
  · rename_i r w hd
    obtain ⟨pre, hp⟩ := h.kept
    have hl := h.least
    have hl' : min 10 old.length ≤ c.recent.length := by split at hl <;> omega
    have hm := h.most
    refine ⟨old ++ [r], h.runes.snoc hd, ?_, ?_, ?_, ?_, ?_⟩
    · simp [h.loc]
    · have hk : c.recent ++ [shownAs r] <:+ (old ++ [r]).map shownAs :=
        ⟨pre, by rw [← List.append_assoc, hp]; simp⟩
      show (if _ then _ else _) <:+ _
      split
      · exact (List.drop_suffix 5 _).trans hk
      · exact hk
    · show List.length (if _ then _ else _) ≤ 15
      split <;> simp only [List.length_drop, List.length_append, List.length_singleton] at * <;> omega
    · show (if some c.rest = none then _ else _) ≤ List.length (if _ then _ else _)
      rw [if_neg (by simp)]
      split <;> simp only [List.length_drop, List.length_append, List.length_singleton] at * <;> omega
    · intro s e
      cases e
      exact ⟨old, r, rfl, h.runes⟩

theorem at_unread {src : Bytes} {c : Ctr} {old : List Nat} (h : At src c old) : ∃ old', At src (unreadRune c).1 old' := by
  unfold unreadRune
  split
  · exact ⟨old, h⟩
  · rename_i s hs
    obtain ⟨init, r, rfl, hi⟩ := h.back s hs
    have hl := h.least
    rw [hs, if_neg (by simp)] at hl
    simp only [List.length_append, List.length_singleton] at hl
    have hpos : c.recent.length > 0 := by omega
    simp only [hpos, if_true]
    obtain ⟨pre, hp⟩ := h.kept
    refine ⟨init, hi, ?_, ?_, ?_, ?_, fun s e => by cases e⟩
    · simp [h.loc]
    · refine ⟨pre, ?_⟩
      have hne : c.recent ≠ [] := List.ne_nil_of_length_pos hpos
      have := congrArg List.dropLast hp
      rw [List.dropLast_append_of_ne_nil hne] at this
      rw [this]; simp
    · have := h.most
      simp only [List.length_dropLast]; omega
    · simp only [if_true, List.length_dropLast]; omega

theorem reached_at {src : Bytes} {c : Ctr} (h : Reached src c) : ∃ old, At src c old := by
  induction h with
  | new => exact ⟨[], .nil _, rfl, List.nil_suffix, by simp [Count.new], by simp [Count.new], fun s e => by cases e⟩
  | read _ ih => obtain ⟨_, h⟩ := ih; exact at_read h
  | unread _ ih => obtain ⟨_, h⟩ := ih; exact at_unread h
  | counts m _ ih => obtain ⟨old, h⟩ := ih; exact ⟨old, h.runes, h.loc, h.kept, h.most, h.least, h.back⟩

theorem shownAs_shownAs (r : Nat) : (if shownAs r = 0x0A then 0x20 else shownAs r) = shownAs r := by
  unfold shownAs
  split <;> simp [*]

/-- What is read for the text after the cursor. -/
theorem peekText_eq : ∀ (n : Nat) (c : Ctr), ∃ next, Runes c.rest next (peekText n c).2.rest ∧ next.length ≤ n ∧
    (next.length < n → (peekText n c).2.rest = []) ∧
    (peekText n c).1 = textOf next ++ (if next.length < n then b!"<EOF>" else []) ∧
    (peekText n c).2.loc = c.loc + next.length ∧ (peekText n c).2.counts = c.counts := by
  intro n
  induction n with
  | zero => intro c; exact ⟨[], .nil _, by simp, by simp, by simp [peekText, textOf], by simp [peekText], rfl⟩
  | succ n ih =>
    intro c
    unfold peekText
    split
    · rename_i c1 r e
      obtain ⟨⟨r0, w, hd, hr, hr0⟩, hloc, _, _, hc⟩ := readRune_some e
      obtain ⟨next, h1, h2, h3, h4, h5, h6⟩ := ih c1
      refine ⟨r0 :: next, .cons hd (by rw [← hr]; exact h1), by simp; exact h2, ?_, ?_, ?_, ?_⟩
      · intro hl; exact h3 (by simpa using hl)
      · have hr1 : r = shownAs r0 := hr0
        simp only [h4, hr1, shownAs_shownAs, textOf, List.flatMap_cons, List.length_cons, Nat.add_lt_add_iff_right, List.append_assoc]
      · simp only [h5, hloc, List.length_cons]; omega
      · rw [h6, hc]
    · rename_i c1 e
      obtain ⟨h1, h2, h3, h4⟩ := readRune_none e
      refine ⟨[], by rw [h2]; exact .nil _, by simp, fun _ => by rw [h2, h1], by simp [textOf], by simp [h3], h4⟩

theorem textOf_map {l k : List Nat} (h : l = k.map shownAs) : l.flatMap Utf8.encode = textOf k := by
  subst h
  simp [textOf, List.flatMap_map]

/-- C101: in every state the parser can bring the counter to, the status text consists of
the number of runes of the source before the cursor, the last of these runes (all of them
if they are at most ten, otherwise at least the last ten and never more than fifteen), the
runes that follow (fifteen, or all that are left and then a mark of the end), newlines being
shown as spaces, then how many fields were found and which more than once. -/
theorem C101_status_partial (word : Nat → Bytes) (pick : Map Bytes Nat → Map Bytes Nat) {src : Bytes} {c : Ctr}
    (h : Reached src c) :
    ∃ hidden before after rest,
      Runes src (hidden ++ before) c.rest ∧ before.length ≤ 15 ∧ (before.length < 10 → hidden = []) ∧
      Runes c.rest after rest ∧ after.length ≤ 15 ∧ (after.length < 15 → rest = []) ∧
      (status word pick c).1 =
        b!"@" ++ Slog.decNat (hidden ++ before).length ++ b!" '" ++ textOf before ++ b!"<^>" ++ textOf after ++
        (if after.length < 15 then b!"<EOF>" else []) ++ b!"' " ++ Slog.decNat c.counts.length ++ b!" " ++
        word c.counts.length ++
        (if (c.counts.filter fun e => e.2 > 1) = [] then b!", no duplicates"
          else b!"," ++ (pick (c.counts.filter fun e => e.2 > 1)).flatMap fun e => b!" " ++ e.1 ++ b!":" ++ Slog.decNat e.2) ∧
      (status word pick c).2.rest = rest ∧
      (status word pick c).2.loc = (hidden ++ before).length + after.length := by
  obtain ⟨old, ha⟩ := reached_at h
  obtain ⟨after, h1, h2, h3, h4, h5, h6⟩ := peekText_eq 15 c
  obtain ⟨pre, hp⟩ := ha.kept
  have hold : old.take pre.length ++ old.drop pre.length = old := List.take_append_drop _ _
  have hlen : pre.length + c.recent.length = old.length := by
    have := congrArg List.length hp; simpa using this
  have hrec : c.recent = (old.drop pre.length).map shownAs := by
    have := congrArg (List.drop pre.length) hp
    rw [List.drop_left, ← List.map_drop] at this
    exact this
  have hl := ha.least
  have hm := ha.most
  refine ⟨old.take pre.length, old.drop pre.length, after, _, by rw [hold]; exact ha.runes, ?_, ?_, h1, h2, h3, ?_, rfl, ?_⟩
  · simp only [List.length_drop]; omega
  · intro hs
    simp only [List.length_drop] at hs
    have : pre.length = 0 := by split at hl <;> omega
    rw [this]; rfl
  · rw [hold]
    have hd : (peekText 15 c).2.duplicates = c.counts.filter fun e => e.2 > 1 := by
      unfold Ctr.duplicates; rw [h6]
    have hn : (peekText 15 c).2.numFields = c.counts.length := by unfold Ctr.numFields; rw [h6]
    simp only [status, dupText, hd, hn, h4, ha.loc, textOf_map hrec, List.append_assoc]
    by_cases hz : (c.counts.filter fun e => e.2 > 1) = []
    · simp only [hz, List.length_nil, if_true, Nat.lt_irrefl, if_false, gt_iff_lt]
    · have hde : dupEntry = fun e => b!" " ++ (e.1 ++ (b!":" ++ Slog.decNat e.2)) := by
        funext e; simp [dupEntry]
      rw [if_neg hz, if_pos (List.length_pos_iff.2 hz), hde]
  · rw [hold]
    show (peekText 15 c).2.loc = _
    rw [h5, ha.loc]

/-- C101: every source is parsed, and the counter is then in one of the states of
`C101_status_partial`. -/
theorem C101_after_parse (U : Uni) (src : Bytes) : ∃ c s, parse U src = some (c, s) ∧ Reached src c := by
  obtain ⟨c, s, _, he, _⟩ := parseWith_ends U (2 * src.length + 4) (Count.new src) (by show 2 * src.length + 2 ≤ _; omega)
  exact ⟨c, s, he, reached_parse U he⟩

/-- The word for a number of fields. -/
def fieldWord (n : Nat) : Bytes := if n = 1 then b!"field" else b!"fields"

/-- Twenty runes read and one given back. -/
def walked (src : Bytes) (n : Nat) : Ctr := Nat.rec (Count.new src) (fun _ c => (readRune c).1) n

theorem walked_reached (src : Bytes) : ∀ n, Reached src (walked src n)
  | 0 => .new
  | n + 1 => (walked_reached src n).read

/-- A case: sixteen runes read and the last given back, so that only ten are shown, and a
newline among those that follow. -/
example : Reached b!"{\"level\":\"INFO\",\n\"level\":1}" (unreadRune (walked b!"{\"level\":\"INFO\",\n\"level\":1}" 16)).1 ∧
    (status fieldWord id (unreadRune (walked b!"{\"level\":\"INFO\",\n\"level\":1}" 16)).1).1 =
      b!"@15 'el\":\"INFO\"<^>, \"level\":1}<EOF>' 0 fields, no duplicates" :=
  ⟨(walked_reached _ 16).unread, by decide +kernel⟩

/-- C101 in full: also, asking for the status changes nothing, so that asking again gives
the same text. -/
def C101_statement : Prop :=
  ∀ (word : Nat → Bytes) (pick : Map Bytes Nat → Map Bytes Nat) (src : Bytes) (c : Ctr), Reached src c →
    (status word pick (status word pick c).2).1 = (status word pick c).1

/-- C101 fails in full: the runes shown after the cursor have been read. -/
theorem C101_fails : ¬ C101_statement := by
  intro h
  have := h fieldWord id b!"{}" (Count.new b!"{}") .new
  revert this
  decide +kernel

/-- C101: what asking costs: a second text begins where the first one ended. -/
theorem C101_twice (word : Nat → Bytes) (pick : Map Bytes Nat → Map Bytes Nat) {src : Bytes} {c : Ctr}
    (h : Reached src c) : Reached src (status word pick c).2 := by
  have : ∀ n (c : Ctr), Reached src c → Reached src (peekText n c).2 := by
    intro n
    induction n with
    | zero => intro c h; exact h
    | succ n ih =>
      intro c h
      unfold peekText
      split
      · rename_i e; exact ih _ (reached_read h e)
      · rename_i e; exact reached_read h e
  exact this 15 c h

end Verif.Props.CountStatus
