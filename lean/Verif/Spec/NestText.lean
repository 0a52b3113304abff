import Verif.Spec.Lists
import Verif.Spec.BlockText
import Verif.Spec.TableText
import Verif.Spec.RoundTrip

/-!
# Lists that are read back as they were written
-/

namespace Vw

/-- The lines of a code or math block, indented. -/
def rawText (ind : Str) (ls : List Str) : Str := ls.flatMap fun l => ind ++ (l ++ b!"\n")

/-- The text of a code block with `ind` in front of its lines. -/
def codeText (ind : Str) (b : Bool) (lang : Option Str) (md : Map) (ls : List Str) : Str :=
  (if b then ind else []) ++ (b!"{{{" ++ (lang.getD [] ++ (pairsText lang.isSome (sortedMap md) ++
    10 :: (rawText ind ls ++ (ind ++ b!"}}}\n")))))

/-- The text of a math block with `ind` in front of its lines. -/
def mathText (ind : Str) (b : Bool) (ls : List Str) (en : Option Str) : Str :=
  (if b then ind else []) ++ (b!"{{$" ++ (envText en ++ 10 :: (rawText ind ls ++ (ind ++ b!"}}$\n"))))

mutual
/-- The text of a block at indentation level `i`; `b` says whether the first line is
indented, too. -/
def blockText (L : OutLib) (cfg : VwCfg) (i : Nat) (b : Bool) : Block → Str
  | .paragraph ls => paraText L cfg (indentText cfg i) b ls
  | .blockquote ls => quoteText (indentText cfg i) b ls
  | .defs xs => defsText L cfg (indentText cfg i) b xs
  | .list xs => itemsText L cfg i b xs
  | .code lang md ls => codeText (indentText cfg i) b lang md ls
  | .math ls en => mathText (indentText cfg i) b ls en
  | .header _ _ _ => []
  | .divider => []
  | .placeholder _ => []
  | .table t => t.text L cfg i b
/-- The text of the items of a list. -/
def itemsText (L : OutLib) (cfg : VwCfg) (i : Nat) (b : Bool) : List (Located (ItemF Block)) → Str
  | [] => []
  | ⟨⟨ty, su, pos, cs, td⟩, _⟩ :: xs =>
    (if b then indentText cfg i else []) ++ (ty.toPrefix L.rom pos su ++ b!" " ++ (todoText td ++
      (contentsText L cfg (i + 1) false cs ++ itemsText L cfg i true xs)))
/-- The text of the contents of an item. -/
def contentsText (L : OutLib) (cfg : VwCfg) (i : Nat) (b : Bool) : List (Located Block) → Str
  | [] => []
  | ⟨x, _⟩ :: xs => blockText L cfg i b x ++ contentsText L cfg i true xs
end

/-- The kinds of blocks that items contain. -/
inductive BlockKind where
  | paragraph | quote | defs | list | code | math | table | other
  deriving DecidableEq

/-- The kind of a block. -/
def Block.kind : Block → BlockKind
  | .paragraph _ => .paragraph
  | .blockquote _ => .quote
  | .defs _ => .defs
  | .list _ => .list
  | .code _ _ _ => .code
  | .math _ _ => .math
  | .table _ => .table
  | _ => .other

/-- A todo status that can be written, before contents with the text `t`. -/
def TodoOk (cfg : VwCfg) (t : Str) : Option Todo → Prop
  | none => ∀ s, ¬ todoText (some s) <+: t
  | some s => cfg.todoChar s = todoMark s

/-- The next block is of another kind; code and math blocks may follow each other. -/
def Apart : List (Located Block) → Prop
  | x :: y :: rest =>
    (x.inner.kind = y.inner.kind → x.inner.kind = .code ∨ x.inner.kind = .math) ∧ Apart (y :: rest)
  | _ => True

mutual
/-- A block that can be written as content of an item, read at depth `d`. -/
def NestOk (env : Env) (ue : Uri → Uri → Bool) (L : OutLib) (cfg : VwCfg) (d : Nat) : Block → Prop
  | .paragraph ls => ParaOk env ue L cfg ls ∧
      ∀ l ∈ ls, 10 ∉ Inline.textAll L cfg l ∧ d + 1 + Inline.nestAll l ≤ 65535
  | .blockquote ls => QuoteOk cfg ls
  | .defs xs => DefsOk env ue L cfg d xs
  | .list xs => xs ≠ [] ∧ ItemsOk env ue L cfg d 0 (xs.head?.map (·.inner.ty)) xs
  | .code lang md ls => CodeHeadOk lang md ∧ (lang = none → md = []) ∧ FenceLines b!"}}}" ls ∧
      ∀ l ∈ ls, ∀ c ∈ l, c < 128
  | .math ls en => (∀ e, en = some e → e ≠ [] ∧ 10 ∉ e ∧ c!"%" ∉ e ∧ NoTerm e) ∧ FenceLines b!"}}$" ls ∧
      ∀ l ∈ ls, ∀ c ∈ l, c < 128
  | .header _ _ _ => False
  | .divider => False
  | .placeholder _ => False
  | .table t => TableOk env ue L cfg d t ∧ t.centered = false
/-- Items of the type `ty`, numbered from `pos` on. -/
def ItemsOk (env : Env) (ue : Uri → Uri → Bool) (L : OutLib) (cfg : VwCfg) (d pos : Nat) (ty : Option ItemType) :
    List (Located (ItemF Block)) → Prop
  | [] => True
  | ⟨⟨ty', su, p, cs, td⟩, _⟩ :: xs =>
    ty = some ty' ∧ p = pos ∧
      (∃ ty2, PrefixText ty2 su (ty'.toPrefix L.rom p su ++ b!" ") ∧ (pos = 0 → ty2 = ty')) ∧
      TodoOk cfg (contentsText L cfg 0 false cs) td ∧ Apart cs ∧
      (∃ x rest, cs = x :: rest ∧ (x.inner.kind = .paragraph ∨ x.inner.kind = .quote ∨ x.inner.kind = .table)) ∧
      ContsOk env ue L cfg (d + 2) cs ∧
      ItemsOk env ue L cfg d (pos + 1) ty xs
/-- The contents of an item. -/
def ContsOk (env : Env) (ue : Uri → Uri → Bool) (L : OutLib) (cfg : VwCfg) (d : Nat) : List (Located Block) → Prop
  | [] => True
  | ⟨x, _⟩ :: xs => NestOk env ue L cfg d x ∧ ContsOk env ue L cfg d xs
end

end Vw
