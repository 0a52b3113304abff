import Verif.Spec.NestText

/-!
# Pages that are read back as they were written
-/

namespace Vw

/-- A block that can be written on a page. -/
def TopOk (env : Env) (ue : Uri → Uri → Bool) (L : OutLib) (cfg : VwCfg) : Block → Prop
  | .header c n _ => HeaderOk env ue L cfg c n ∧ 1 + Inline.nestAll c ≤ 65535
  | .paragraph ls => ParaOk env ue L cfg ls ∧ ∀ l ∈ ls, 1 + Inline.nestAll l ≤ 65535
  | .blockquote ls => QuoteOk cfg ls
  | .defs xs => DefsOk env ue L cfg 0 xs
  | .list xs => NestOk env ue L cfg 0 (.list xs)
  | .code lang md ls => LeafOk L env (.code lang md ls)
  | .math ls en => LeafOk L env (.math ls en)
  | .placeholder p => LeafOk L env (.placeholder p)
  | .divider => True
  | .table t => TableOk env ue L cfg 0 t

/-- Headers and tables that are centered are indented. -/
def Block.Indented : Block → Prop
  | .header _ _ ce => ce = true
  | .table t => t.centered = true
  | _ => False

/-- A block that can be written after `x`. Blockquotes merge even over a blank line. Without
blank lines between the blocks, paragraphs, definition lists, lists and tables merge with the
next one of their kind, an indented block belongs to the list before it, and a header with
`::` to the definition list before it. -/
def Beside (L : OutLib) (cfg : VwCfg) (x y : Block) : Prop :=
  (x.kind = .quote → y.kind ≠ .quote) ∧
    (cfg.separate = false →
      (x.kind = .paragraph → y.kind ≠ .paragraph) ∧
      (x.kind = .defs → y.kind ≠ .defs ∧ ∀ c n ce, y = .header c n ce → NoTermLine (headerText L cfg c n ce)) ∧
      (x.kind = .list → y.kind ≠ .list ∧ ¬ y.Indented) ∧
      (x.kind = .table → y.kind ≠ .table))

/-- Each block can be written after the one before it. -/
def AllBeside (L : OutLib) (cfg : VwCfg) : List (Located Block) → Prop
  | x :: y :: rest => Beside L cfg x.inner y.inner ∧ AllBeside L cfg (y :: rest)
  | _ => True

end Vw
