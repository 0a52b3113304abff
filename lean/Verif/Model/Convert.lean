import Verif.Model.Cli
import Verif.Model.HtmlOut

/-!
# The command line tool: converting wikis to HTML

Models `vimwiki-cli/src/subcommand/convert.rs` and the part of `vimwiki-cli/src/utils.rs` that adds
wikis for paths given on the command line. Writing to the file system and to the standard output is
taken to succeed. `WalkDir` reads directories as it goes; here the files are listed before the
first one of a path is converted.
-/

namespace Vw

/-- What `convert` works on: the user's files, the pages loaded, the cache and what was printed. -/
structure Conv where
  files : Files
  ast : Ast
  cache : Cache
  printed : List Str := []

/-- Why `convert` ends with an error. -/
inductive ConvErr where
  | io (e : IoErr)
  | html (e : HtmlErr)
deriving DecidableEq, Repr

/-- The options of `convert` (opt.rs:109-124) and the common ones it reads. -/
structure ConvOpt where
  incl : List IndexOrName
  noCache : Bool
  stdout : Bool
  css : Bool
  extra : List Path

namespace HtmlCfg

/-- The configuration for one page (convert.rs:100-112). -/
def forPage (c : HtmlCfg) (p : Path) : HtmlCfg := { c with page := p, wikiIndex := c.wikiIndexByPath p }

/-- `find_wiki_by_path` (config.rs:246-252). -/
def wikiByPath (c : HtmlCfg) (p : Path) : Option Wiki := (c.wikiIndexByPath p).bind c.wikiByIndex

end HtmlCfg

/-- `process_file` (convert.rs:127-186) with the configuration `process_path` makes for the page. -/
def processFile (L : CliLib) (H : HtmlLib) (c : HtmlCfg) (noCache stdout : Bool) (f : Fault) (s : Conv) (p : Path) :
    Option ConvErr × Conv :=
  match s.ast.obtain L s.files s.cache p noCache f with
  | (.error e, a, ch) => (some (.io e), { s with ast := a, cache := ch })
  | (.ok file, a, ch) =>
    match toHtmlPage H (c.forPage p) (pageHtml H (c.forPage p) file.data) with
    | .error e => (some (.html e), { s with ast := a, cache := ch })
    | .ok html =>
      if stdout then (none, { s with ast := a, cache := ch, printed := s.printed ++ [html] })
      else
        match ((c.wikiByPath p).getD c.defaultWiki).outputPath p b!"html" with
        | none => (some (.html .panic), { s with ast := a, cache := ch })
        | some out => (none, { s with files := s.files.set out html, ast := a, cache := ch })

/-- The loop of `process_path` (convert.rs:90-124). -/
def processFiles (L : CliLib) (H : HtmlLib) (c : HtmlCfg) (noCache stdout : Bool) (faults : Path → Fault) :
    List Path → Conv → Option ConvErr × Conv
  | [], s => (none, s)
  | p :: ps, s =>
    match processFile L H c noCache stdout (faults p) s p with
    | (some e, s) => (some e, s)
    | (none, s) => processFiles L H c noCache stdout faults ps s

/-- `process_path` (convert.rs:72-125). -/
def processPath (L : CliLib) (H : HtmlLib) (c : HtmlCfg) (noCache stdout : Bool) (faults : Path → Fault) (dir : Path)
    (ext : Str) (s : Conv) : Option ConvErr × Conv :=
  processFiles L H c noCache stdout faults (s.files.walk dir ext) s

/-- Writing the style sheet (convert.rs:33-38, 63-68). -/
def writeCss (css : Str) (o : ConvOpt) (w : Wiki) (s : Conv) : Conv :=
  if !o.stdout && o.css then { s with files := s.files.set (w.pathHtml.join (Path.ofStr b!"style.css")) css } else s

/-- The loop over the wikis or paths (convert.rs:15-39, 43-69): for each a directory, an extension and
the wiki whose output directory gets the style sheet. -/
def convertEach (L : CliLib) (H : HtmlLib) (c : HtmlCfg) (o : ConvOpt) (css : Str) (faults : Path → Fault) :
    List (Path × Str × Wiki) → Conv → Option ConvErr × Conv
  | [], s => (none, s)
  | (dir, ext, w) :: rest, s =>
    match processPath L H c o.noCache o.stdout faults dir ext s with
    | (some e, s) => (some e, s)
    | (none, s) => convertEach L H c o css faults rest (writeCss css o w s)

/-- What `convert` goes through (convert.rs:15-30, 43-61). The paths on the command line are taken in
their canonical form. -/
def convertPlan (c : HtmlCfg) (o : ConvOpt) : List (Path × Str × Wiki) :=
  if o.extra = [] then (selectFrom o.incl 0 c.wikis).map fun e => (e.2.path, e.2.ext, e.2)
  else o.extra.map fun p => (p, b!"wiki", c.tmpWiki)

/-- `convert` (convert.rs:7-70). -/
def convert (L : CliLib) (H : HtmlLib) (c : HtmlCfg) (o : ConvOpt) (css : Str) (faults : Path → Fault) (s : Conv) :
    Option ConvErr × Conv :=
  convertEach L H c o css faults (convertPlan c o) s

/-- The wiki added for a path on the command line (utils.rs:64-84); `isDir` tells directories. -/
def extraWiki (isDir : Path → Bool) (c : HtmlCfg) (p : Path) : Option Wiki :=
  if isDir p then some { c.defaultWiki with path := p }
  else p.parent.map fun q => { c.defaultWiki with path := q }

/-- The configuration `convert` is given (utils.rs:63-98, lib.rs:85-116). -/
def convertCfg (isDir : Path → Bool) (c : HtmlCfg) (o : ConvOpt) : HtmlCfg :=
  { c with wikis := keepWikis o.incl (c.wikis ++ o.extra.filterMap (extraWiki isDir c)) }

/-- The subcommand `convert` as a whole (lib.rs:85-116, convert.rs:7-70). -/
def convertAll (L : CliLib) (H : HtmlLib) (isDir : Path → Bool) (c : HtmlCfg) (o : ConvOpt) (css : Str) (noPrune : Bool)
    (faults : Path → Fault) (stuck : List Str → Bool) (fs : Files) (ch : Cache) : Option ConvErr × Conv :=
  let c := convertCfg isDir c o
  match loadAst L fs ch c.wikis o.incl o.noCache noPrune faults stuck with
  | (.error e, ch) => (some (.io e), ⟨fs, [], ch, []⟩)
  | (.ok a, ch) => convert L H c o css faults ⟨fs, a, ch, []⟩

end Vw
