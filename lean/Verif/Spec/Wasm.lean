import Verif.Model.Wasm
import Verif.Spec.Children

/-!
# What the JavaScript package should do
-/

namespace Vw

/-- A date of the calendar. -/
def Date.Exists (d : Date) : Prop := 1 ≤ d.month ∧ d.month ≤ 12 ∧ 1 ≤ d.day ∧ d.day ≤ monthDays d.year d.month

/-- What is assumed of the dates of JavaScript (ECMAScript, `new Date`): a day that exists is shown as it
was given, for years from 100 on; the month after the last one is the first of the next year; days after
the end of a month are in the next one; a date shows a day that exists. -/
structure JsLib.Sound (J : JsLib) : Prop where
  shown : ∀ (y m d : Nat), 100 ≤ y → m < 12 → 1 ≤ d → d ≤ monthDays y (m + 1) → J.shown (J.make y m d) = (y, m, d)
  carryMonth : ∀ (y d : Nat), 100 ≤ y → J.make y 12 d = J.make (y + 1) 0 d
  carryDay : ∀ (y m d : Nat), 100 ≤ y → m < 11 → d ≤ 31 → monthDays y (m + 1) < d →
    J.make y m d = J.make y (m + 1) ((d : Int) - monthDays y (m + 1))
  utc : ∀ t, (J.shownUtc t).2.1 < 12 ∧ 1 ≤ (J.shownUtc t).2.2 ∧
    (J.shownUtc t).2.2 ≤ monthDays (J.shownUtc t).1 ((J.shownUtc t).2.1 + 1)

/-- The JavaScript date shows the day, in which months are counted from 0. -/
def ShowsDay (d : Date) (p : Nat × Nat × Nat) : Prop := (p.1 : Int) = d.year ∧ p.2.1 + 1 = d.month ∧ p.2.2 = d.day

/-- Level by level: the elements, their children, the children of these and so on. -/
inductive Levels : List (Located Element) → List (Located Element) → Prop where
  | nil : Levels [] []
  | cons {xs ys} : xs ≠ [] → Levels (xs.flatMap fun x => x.inner.children) ys → Levels xs (xs ++ ys)

/-- The values before position `c` are all there. -/
def NoGapBefore {α : Type} (xs : List (Option α)) (c : Nat) : Prop := ∀ i, i < c → ∀ x, xs[i]? = some x → x ≠ none

end Vw
