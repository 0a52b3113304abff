import Verif.Lemmas.Pieces
import Verif.Spec.Quotes
import Verif.Spec.Demo

/-!
# Quotes keep their lines (C104)
-/

namespace Vw

set_option maxRecDepth 20000

/-- **C104.** Each line of the source of a quote, in lists too, is one line of the quote, in the
same order: the text behind the arrow or behind the indent up to the end of the line. A blank line
between lines with arrows is an empty line. -/
theorem C104_quote_lines {env : Env} {text : Str} {s' : Span} {pg : Page}
    (h : parsePage env text = .ok s' pg) {x : Located Block} (hx : x ∈ pg.blocks) {ls : List Str}
    (hq : x.inner = .blockquote ls) : QuoteSource (x.region.source text) ls := by
  have hb := (parsePage_block h hx).2.2
  rw [hq] at hb
  cases hb with
  | blockquote _ h => exact h

/-- The lines of a quote. -/
def Block.quote? : Block → Option (List Str)
  | .blockquote ls => some ls
  | _ => none

/-- Quotes of both kinds, one of them in a list: blanks behind the arrow and at the ends of lines
are kept, and so are blank lines in between. -/
example : ∃ s pg, parsePage demo b!"> a\n  >  b \n\n \n> c\n\n    dd\n\te   f\n- i\n  > g\n" = .ok s pg ∧
    pg.blocks.filterMap (fun x => x.inner.quote?) =
      [[b!"a", b!" b ", b!"", b!"", b!"c"], [b!"dd"], [b!"g"]] :=
  page_test (text := b!"> a\n  >  b \n\n \n> c\n\n    dd\n\te   f\n- i\n  > g\n") (fun pg =>
    pg.blocks.filterMap (fun x => x.inner.quote?) =
      [[b!"a", b!" b ", b!"", b!"", b!"c"], [b!"dd"], [b!"g"]]) (by decide +kernel)

end Vw
