import Verif.Model.Blocks

/-!
# Example libraries

Stand-ins for the URI and date libraries, used only in the examples beside the
theorems.
-/

namespace Vw

/-- URI references without blanks, quotes and non-ASCII bytes; a lowercase word
before the first `:` is the scheme. -/
def demoUri (s : Str) : Option Uri :=
  if s.any (fun b => b ≤ 32 || b == 34 || b ≥ 127) then none
  else match memchr (· == 58) s with
    | some i =>
      if (s.take i).all isLower then some ⟨some (s.take i), none, false, [s.drop (i + 1)], none, none⟩
      else some ⟨none, none, false, [s], none, none⟩
    | none => some ⟨none, none, false, [s], none, none⟩

/-- Every ten byte text is the same date. -/
def demoDate (s : Str) : Option Date := if s.length = 10 then some ⟨2021, 1, 1⟩ else none

/-- The example libraries. -/
def demo : Env := ⟨demoUri, demoDate⟩

/-- The page parsed from an example text. -/
def demoPage (text : Str) : Option Page :=
  match parsePage demo text with
  | .ok _ pg => some pg
  | _ => none

/-- The parse succeeds and the result passes a test. -/
def Res.test {α} (f : Span → α → Bool) : Res α → Bool
  | .ok s a => f s a
  | _ => false

theorem Res.of_test {α} {r : Res α} {f : Span → α → Bool} (h : r.test f = true) :
    ∃ s a, r = .ok s a ∧ f s a = true := by
  cases r with
  | ok s a => exact ⟨s, a, rfl, h⟩
  | _ => cases h

/-- The reason of a panic. -/
def Res.reason {α} : Res α → Option Reason
  | .panic r => some r
  | _ => none

theorem Res.of_reason {α} {r : Res α} {x : Reason} (h : decide (r.reason = some x) = true) :
    r = .panic x := by
  cases r with
  | panic y => simp [Res.reason] at h; rw [h]
  | _ => simp [Res.reason] at h

/-- Used in examples: `text` parses and the page satisfies a decidable property. -/
theorem page_test {text : Str} (p : Page → Prop) [DecidablePred p]
    (h : (parsePage demo text).test (fun _ pg => decide (p pg)) = true) :
    ∃ s pg, parsePage demo text = .ok s pg ∧ p pg := by
  obtain ⟨s, pg, h1, h2⟩ := Res.of_test h
  exact ⟨s, pg, h1, of_decide_eq_true h2⟩

/-- The parts of a code block, used in examples. -/
def Block.code? : Block → Option (Option Str × Map × List Str)
  | .code l m ls => some (l, m, ls)
  | _ => none

/-- The parts of a math block, used in examples. -/
def Block.math? : Block → Option (List Str × Option Str)
  | .math ls e => some (ls, e)
  | _ => none

/-- The items of a list, used in examples. -/
def Block.items? : Block → Option (List (Located ListItem))
  | .list xs => some xs
  | _ => none

/-- Does the parser fail? Used in examples. -/
def Res.isErr {α} : Res α → Bool
  | .err => true
  | _ => false

/-- A comment, used in examples. -/
def Inline.comment? : Inline → Option Comment
  | .comment c => some c
  | _ => none

/-- A table, used in examples. -/
def Block.table? : Block → Option Table
  | .table t => some t
  | _ => none

/-- The first table of a page, used in examples. -/
def Page.table? (p : Page) : Option Table := p.elements.findSome? fun x => x.inner.table?

end Vw
