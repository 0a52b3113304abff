import Verif.Model.Blocks

/-!
# How often lists are read

The parsers for blocks again, with a count of how many times `list` is entered. Parsers that do
not use `list` count nothing, so the count is a lower bound for the work that is done.
-/

namespace Vw
open P Scan

/-- A parser with the number of times it enters `list`. -/
abbrev K (α : Type) := Span → Res α × Nat

namespace K

/-- A parser that does not use `list`. -/
def lift {α} (p : P α) : K α := fun s => (p s, 0)

/-- One more time. -/
def tick {α} (p : K α) : K α := fun s => ((p s).1, (p s).2 + 1)

/-- Sequencing: see `P.bind`. -/
def bind {α β} (p : K α) (f : α → K β) : K β := fun s =>
  match p s with
  | (.ok s' a, n) => ((f a s').1, n + (f a s').2)
  | (.err, n) => (.err, n)
  | (.panic r, n) => (.panic r, n)
  | (.diverge, n) => (.diverge, n)

/-- See `P.map`. -/
def map {α β} (p : K α) (f : α → β) : K β := fun s =>
  match p s with
  | (.ok s' a, n) => (.ok s' (f a), n)
  | (.err, n) => (.err, n)
  | (.panic r, n) => (.panic r, n)
  | (.diverge, n) => (.diverge, n)

/-- See `P.alt`: the second parser runs when the first one fails. -/
def alt {α} (p q : K α) : K α := fun s =>
  match p s with
  | (.err, n) => ((q s).1, n + (q s).2)
  | r => r

/-- See `P.alts`. -/
def alts {α} : List (K α) → K α
  | [] => lift fail
  | [p] => p
  | p :: q :: ps => alt p (alts (q :: ps))

/-- See `P.not`: the parser runs, whatever becomes of its result. -/
def not {α} (p : K α) : K Unit := fun s => (P.not (fun s => (p s).1) s, (p s).2)

/-- See `P.allConsuming`. -/
def allConsuming {α} (p : K α) : K α := fun s => (P.allConsuming (fun s => (p s).1) s, (p s).2)

/-- See `P.many0Loop`. -/
def many0Loop {α} (p : K α) : Nat → K (List α)
  | 0 => lift fun _ => .diverge
  | m + 1 => fun s =>
    match p s with
    | (.err, n) => (.ok s [], n)
    | (.panic r, n) => (.panic r, n)
    | (.diverge, n) => (.diverge, n)
    | (.ok s' a, n) =>
      if s' = s then (.err, n)
      else
        match many0Loop p m s' with
        | (.ok s'' as, k) => (.ok s'' (a :: as), n + k)
        | (.err, k) => (.err, n + k)
        | (.panic r, k) => (.panic r, n + k)
        | (.diverge, k) => (.diverge, n + k)

/-- See `P.many0`. -/
def many0 {α} (p : K α) : K (List α) := fun s => many0Loop p (s.remainingLen + 1) s

/-- See `P.many1`. -/
def many1 {α} (p : K α) : K (List α) :=
  bind p fun a => bind (many0 p) fun as => lift (P.pure (a :: as))

/-- See `deeper` (convert.rs:16-23). -/
def deeper {α} (p : K α) : K α := fun s =>
  (Scan.deeper (fun s => (p s).1) s, if s.depth ≥ 65535 then 0 else (p (s.withDepth (s.depth + 1))).2)

/-- See `located` (convert.rs:29-54). -/
def located {α} (p : K α) : K (Located α) := fun s => (Scan.located (fun s => (p s).1) s, (p s).2)

end K

/-- `continue_paragraph` (paragraphs.rs:57-69) given `list`. -/
def continueParagraphK (env : Env) (list : K (Located Block)) : K Unit :=
  .bind (.lift (P.not (header env))) fun _ =>
  .bind (.lift (P.not (definitionList env))) fun _ =>
  .bind (.not list) fun _ =>
  .lift (P.bind (P.not (table env)) fun _ =>
    P.bind (P.not codeBlock) fun _ =>
    P.bind (P.not mathBlock) fun _ =>
    P.bind (P.not blankLine) fun _ =>
    P.bind (P.not arrowBlockquote) fun _ =>
    P.bind (P.not divider) fun _ =>
    P.bind (P.not (placeholder env)) fun _ => P.pure ())

/-- One line of a paragraph (paragraphs.rs:30-37) given `list`. -/
def paraLineK (env : Env) (list : K (Located Block)) : K Inlines :=
  .bind (continueParagraphK env list) fun _ =>
  .lift (P.bind (paragraphLine env) fun b => P.bind endOfLineOrInput fun _ => P.pure b)

/-- `paragraph` (paragraphs.rs:23-43) given `list`. -/
def paragraphK (env : Env) (list : K (Located Block)) : K (Located Block) :=
  .located (.map (.many1 (paraLineK env list)) Block.paragraph)

/-- `list_item_tail` (lists.rs:116-156) given `nested_block_element`. -/
def listItemTailK (nested : K (Located Block)) (indentation : Nat) :
    K (Option Todo × List (Located Block)) :=
  .bind (.lift (opt todoStatus)) fun todo =>
  .bind (.deeper nested) fun content =>
  .bind (.many0 (.bind (.lift (verify indentationPeek (fun level => decide (level > indentation))))
    fun _ => .deeper nested)) fun contents =>
  .lift (P.pure (todo, content :: contents))

/-- The part of `list_item` that is read from the lines of the item (lists.rs:90-101). -/
def listItemBodyK (nested : K (Located Block)) (indentation : Nat) : K (Located ListItem) :=
  .located (.map (.bind (.lift listItemPrefix) fun a =>
      .bind (listItemTailK nested indentation) fun b => .lift (P.pure (a, b)))
    (fun ((ty, suffix), (todo, contents)) => (⟨ty, suffix, 0, contents, todo⟩ : ListItem)))

/-- `list_item` (lists.rs:72-113) given `nested_block_element`. -/
def listItemK (nested : K (Located Block)) : K (Nat × Located ListItem) :=
  .bind (.lift beginningOfLine) fun _ =>
  .bind (.lift indentationConsume) fun indentation => fun s =>
    match itemLines indentation s with
    | .ok _ remaining =>
      (match listItemBodyK nested indentation remaining with
       | (.ok remaining' item, n) =>
         (if remaining'.start < s.start then .panic .offsetUnderflow
          else .ok (s.advanceStartBy (remaining'.start - s.start)) (indentation, item), n)
       | (.err, n) => (.err, n)
       | (.panic r, n) => (.panic r, n)
       | (.diverge, n) => (.diverge, n))
    | .err => (.err, 0)
    | .panic r => (.panic r, 0)
    | .diverge => (.diverge, 0)

/-- `list` (lists.rs:25-68) given `nested_block_element`: this is what is counted. -/
def listK (nested : K (Located Block)) : K (Located Block) :=
  .tick (.located (
    .bind (.deeper (listItemK nested)) fun (indentation, item) =>
    .bind (.many0 (.bind (.lift (verify indentationPeek (fun level => decide (level = indentation))))
      fun _ => .map (.deeper (listItemK nested)) (·.2))) fun items =>
    .lift (P.pure (Block.list (normalizeItems (item :: assignPos 1 items))))))

/-- `nested_block_element` (blocks/mod.rs:49-63) given `list`. -/
def nestedK (env : Env) (list : K (Located Block)) : K (Located Block) :=
  .alts [.lift (definitionList env), list, .lift (nestedTable env), .lift codeBlock, .lift mathBlock,
    .lift arrowBlockquote, paragraphK env list]

/-- `nested_block_element` with fuel. -/
def nestedFK (env : Env) : Nat → K (Located Block)
  | 0 => .lift fun _ => .diverge
  | n + 1 => nestedK env (listK (nestedFK env n))

/-- `list`. -/
def listTopK (env : Env) : K (Located Block) := fun s => listK (nestedFK env s.remainingLen) s

/-- `top_level_block_element` (blocks/mod.rs:28-45). -/
def topLevelK (env : Env) : K (Located Block) :=
  .alts [.lift (header env), .lift (definitionList env), listTopK env, .lift (table env), .lift codeBlock,
    .lift mathBlock, .lift blockquote, .lift divider, .lift (placeholder env), paragraphK env (listTopK env)]

/-- `maybe_block_element` (parsers/vimwiki/mod.rs:20-27). -/
def maybeBlockK (env : Env) : K (Option (Located Block)) :=
  .alt (.lift (P.value none blankLine)) (.map (topLevelK env) some)

/-- `page` (parsers/vimwiki/mod.rs:16-35). -/
def pageK (env : Env) : K Page :=
  .map (.allConsuming (.many0 (maybeBlockK env))) (fun es => ⟨es.filterMap id⟩)

/-- Parsing a text (lang/mod.rs), with the number of times that a list was read. -/
def parsePageK (env : Env) (text : Str) : Res Page × Nat := pageK env (Span.ofStr text)

end Vw
