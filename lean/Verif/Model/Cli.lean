import Verif.Model.Paths
import Verif.Model.Blocks
import Verif.Model.VimwikiOut

/-!
# The command line tool: cache, loaded wikis, include filter, formatting in place

Models `vimwiki-cli/src/{ast,opt,utils}.rs`, `vimwiki-cli/src/subcommand/{convert,format}.rs`
and `vimwiki-core/src/lang/mod.rs`.

A file system is an association list from paths to texts. What the tool calls in other
crates is a parameter (`CliLib`). Every system call that may fail and whose failure the tool
only logs has its outcome as an argument (`Fault`), so a theorem about all faults is a theorem
about all of them. Logging is left out.
-/

namespace Vw

/-- The functions of other crates the tool relies on: the parser's libraries, the lower case
hexadecimal SHA-1 digest, `serde_json::to_writer_pretty` and `serde_json::from_reader` on
pages. The serialised form is a function of the page here, while the order of entries of a
`HashMap` may vary between runs. -/
structure CliLib where
  env : Env
  sha : Str → Str
  ser : Page → Str
  deser : Str → Option Page

/-- The errors `io::Result` carries out of the functions below, with the ways a parse can end
without a result. -/
inductive IoErr where
  | notFound
  | invalidData
  | panicked (r : Reason)
  | diverged
deriving DecidableEq, Repr

/-- Files of the user by path, in the order a directory walk lists them; `none` is a file
that is not valid UTF-8 or may not be read. -/
abbrev Files := List (Path × Option Str)

/-- Files below the cache directory by relative path. -/
abbrev Cache := List (List Str × Str)

/-- Lookup in an association list. -/
def Files.get (fs : Files) (p : Path) : Option (Option Str) :=
  (fs.find? (fun e => e.1 == p)).map (·.2)

/-- `fs::write`: the entry is replaced where it stands or added at the end. -/
def Files.set (fs : Files) (p : Path) (t : Str) : Files :=
  match fs with
  | [] => [(p, some t)]
  | e :: rest => if e.1 == p then (p, some t) :: rest else e :: Files.set rest p t

/-- The contents of one file of the cache directory. -/
def Cache.get (c : Cache) (k : List Str) : Option Str :=
  (c.find? (fun e => e.1 == k)).map (·.2)

/-- `fs::remove_file`. -/
def Cache.del (c : Cache) (k : List Str) : Cache := c.filter (fun e => !(e.1 == k))

/-- `File::create` and writing. -/
def Cache.set (c : Cache) (k : List Str) (v : Str) : Cache := (k, v) :: Cache.del c k

/-- `fs::read_to_string`. -/
def Files.read (fs : Files) (p : Path) : Except IoErr Str :=
  match fs.get p with
  | none => .error .notFound
  | some none => .error .invalidData
  | some (some t) => .ok t

/-- `WikiFile` (ast.rs:91-96). -/
structure WikiFile where
  path : Path
  checksum : Str
  data : Page

/-- `Wiki` (ast.rs:83-89). -/
structure WikiAst where
  index : Nat
  name : Option Str
  path : Path
  files : List WikiFile

/-- `Ast` (ast.rs:15-18). -/
abbrev Ast := List WikiAst

/-- How much of a new cache entry reaches the disk: all of it, its first `n` bytes, or the file
cannot even be created. -/
inductive Written where
  | all
  | first (n : Nat)
  | nothing
deriving DecidableEq, Repr

/-- How the system calls of one load behave when their failures are only logged: reading an
existing cache entry, removing it, and writing the new one. -/
structure Fault where
  readFails : Bool
  removeFails : Bool
  written : Written
deriving DecidableEq, Repr

/-- Nothing fails. -/
def noFault : Fault := ⟨false, false, .all⟩

namespace CliLib

/-- `Language::from_vimwiki_str(&text).parse::<Page>()` with its error mapped to
`io::ErrorKind::InvalidData` (ast.rs:275-282, format.rs:78-85). -/
def parse (L : CliLib) (text : Str) : Except IoErr Page :=
  match parsePage L.env text with
  | .ok _ p => .ok p
  | .err => .error .invalidData
  | .panic r => .error (.panicked r)
  | .diverge => .error .diverged

/-- The lookup of a cached page and the cache it leaves (ast.rs:229-266). -/
def cached (L : CliLib) (c : Cache) (sum : Str) (noCache : Bool) (f : Fault) :
    Option Page × Cache :=
  if noCache then (none, c)
  else match c.get [sum] with
    | none => (none, c)
    | some b =>
      match (if f.readFails then none else L.deser b) with
      | some p => (some p, c)
      | none => (none, if f.removeFails then c else c.del [sum])

/-- Writing a page to the cache (ast.rs:284-313): `File::create` empties the file, of the
serialised page only the first `n` bytes may arrive. -/
def store (L : CliLib) (c : Cache) (sum : Str) (p : Page) (f : Fault) : Cache :=
  match f.written with
  | .all => c.set [sum] (L.ser p)
  | .first n => c.set [sum] ((L.ser p).take n)
  | .nothing => c

/-- `load_wiki_file` (ast.rs:212-320), with the cache it leaves. -/
def loadWikiFile (L : CliLib) (fs : Files) (c : Cache) (path : Path) (noCache : Bool)
    (f : Fault) : Except IoErr WikiFile × Cache :=
  match fs.read path with
  | .error e => (.error e, c)
  | .ok text =>
    let sum := L.sha text
    match L.cached c sum noCache f with
    | (some p, c) => (.ok ⟨path, sum, p⟩, c)
    | (none, c) =>
      match L.parse text with
      | .error e => (.error e, c)
      | .ok p => (.ok ⟨path, sum, p⟩, L.store c sum p f)

end CliLib

/-! ### Selecting wikis -/

/-- `IndexOrName` (opt.rs:168-173). -/
inductive IndexOrName where
  | index (n : Nat)
  | name (s : Str)
deriving DecidableEq

/-- `FromStr for IndexOrName` (opt.rs:214-223). -/
def IndexOrName.ofStr (s : Str) : IndexOrName :=
  match parseUsize s with
  | some n => .index n
  | none => .name s

/-- `PartialEq<usize>` (opt.rs:187-194). -/
def IndexOrName.eqIndex : IndexOrName → Nat → Bool
  | .index x, n => x == n
  | .name _, _ => false

/-- `PartialEq<str>` (opt.rs:205-212). -/
def IndexOrName.eqName : IndexOrName → Str → Bool
  | .name x, n => x == n
  | .index _, _ => false

/-- `IndexOrName::matches_either` (opt.rs:175-185). -/
def IndexOrName.matchesEither (i : IndexOrName) (idx : Nat) (name : Option Str) : Bool :=
  i.eqIndex idx || (match name with
    | some n => i.eqName n
    | none => false)

/-- `CommonOpt::filter_by_wiki_idx_and_name` (opt.rs:75-84) and the closure `filter` of
`load_ast` (ast.rs:131-136). -/
def selects (incl : List IndexOrName) (idx : Nat) (name : Option Str) : Bool :=
  incl.isEmpty || incl.any (·.matchesEither idx name)

/-- `iter().enumerate().filter(..)` over the configured wikis, starting to count at `i`. -/
def selectFrom (incl : List IndexOrName) : Nat → List Wiki → List (Nat × Wiki)
  | _, [] => []
  | i, w :: ws =>
    if selects incl i w.name then (i, w) :: selectFrom incl (i + 1) ws
    else selectFrom incl (i + 1) ws

/-- The wikis `load_html_config` keeps (utils.rs:80-89): the list of the configuration file
and vim with the temporary wikis added, filtered. -/
def keepWikis (incl : List IndexOrName) (ws : List Wiki) : List Wiki :=
  (selectFrom incl 0 ws).map (·.2)

/-! ### Loading all wikis -/

/-- The files `WalkDir::new(dir)` lists with extension `ext` (ast.rs:150-158,
convert.rs:90-98). -/
def Files.walk (fs : Files) (dir : Path) (ext : Str) : List Path :=
  (fs.map (·.1)).filter fun p => p.startsWith dir && p.extension == some ext

/-- `if let Some(wiki) = ast.wikis.get_mut(i) { wiki.files.push(file) }` (ast.rs:160-162). -/
def Ast.pushFile (a : Ast) (i : Nat) (f : WikiFile) : Ast :=
  a.modify i fun w => { w with files := w.files ++ [f] }

/-- One pass over the files of a wiki (ast.rs:150-163): load each, push it to the wiki at
position `i` of the result. `faults` gives the behaviour of the system for each path. -/
def loadFiles (L : CliLib) (fs : Files) (noCache : Bool) (faults : Path → Fault) (i : Nat) :
    List Path → Ast → Cache → Except IoErr Ast × Cache
  | [], a, c => (.ok a, c)
  | p :: ps, a, c =>
    match L.loadWikiFile fs c p noCache (faults p) with
    | (.error e, c) => (.error e, c)
    | (.ok f, c) => loadFiles L fs noCache faults i ps (a.pushFile i f) c

/-- The loop over the selected wikis (ast.rs:138-164). The index given to `get_mut` is the
one in the configuration. -/
def loadWikis (L : CliLib) (fs : Files) (noCache : Bool) (faults : Path → Fault) :
    List (Nat × Wiki) → Ast → Cache → Except IoErr Ast × Cache
  | [], a, c => (.ok a, c)
  | (i, w) :: ws, a, c =>
    match loadFiles L fs noCache faults i (fs.walk w.path w.ext)
        (a ++ [⟨i, w.name, w.path, []⟩]) c with
    | (.error e, c) => (.error e, c)
    | (.ok a, c) => loadWikis L fs noCache faults ws a c

/-- All loaded files. -/
def Ast.files (a : Ast) : List WikiFile := a.flatMap (·.files)

/-- Whether the last component of a path is a loaded checksum, `checksums.contains(name)`
(ast.rs:181-182). -/
def inUse (sums : List Str) (k : List Str) : Bool :=
  match k.getLast? with
  | some name => sums.contains name
  | none => false

/-- Pruning (ast.rs:166-205): every file below the cache directory whose name is not the
checksum of a loaded file is removed unless `stuck` says that removal fails. A name that is
not UTF-8 is never a checksum and is removed too. -/
def prune (c : Cache) (sums : List Str) (stuck : List Str → Bool) : Cache :=
  c.filter fun e => stuck e.1 || inUse sums e.1

/-- `load_ast` (ast.rs:106-210). `create_dir_all` is taken to succeed. -/
def loadAst (L : CliLib) (fs : Files) (c : Cache) (wikis : List Wiki)
    (incl : List IndexOrName) (noCache noPrune : Bool) (faults : Path → Fault)
    (stuck : List Str → Bool) : Except IoErr Ast × Cache :=
  match loadWikis L fs noCache faults (selectFrom incl 0 wikis) [] c with
  | (.error e, c) => (.error e, c)
  | (.ok a, c) =>
    (.ok a, if !noPrune && !noCache then prune c (Ast.files a |>.map (·.checksum)) stuck else c)

/-- What `convert`, `inspect` and `serve` load (lib.rs:113-145): the configuration is filtered
by `load_html_config`, then `Ast::load` filters what is left again. -/
def loadAll (L : CliLib) (fs : Files) (c : Cache) (wikis : List Wiki)
    (incl : List IndexOrName) (noCache noPrune : Bool) (faults : Path → Fault)
    (stuck : List Str → Bool) : Except IoErr Ast × Cache :=
  loadAst L fs c (keepWikis incl wikis) incl noCache noPrune faults stuck

/-! ### Files loaded on demand -/

/-- `Ast::find_file_by_path` (ast.rs:72-80). -/
def Ast.find (a : Ast) (p : Path) : Option WikiFile :=
  a.findSome? fun w => w.files.find? (fun f => f.path == p)

/-- Where `load_file` puts a file (ast.rs:43-64): into the first wiki that contains it,
otherwise into a new wiki. -/
def Ast.place (a : Ast) (p : Path) (f : WikiFile) : Ast :=
  match a.findIdx? (fun w => p.startsWith w.path) with
  | some i => a.pushFile i f
  | none => a ++ [⟨a.length, none, (f.path.parent).getD [], [f]⟩]

/-- `Ast::load_file` (ast.rs:31-70), with the new state. -/
def Ast.loadFile (L : CliLib) (fs : Files) (a : Ast) (c : Cache) (p : Path) (noCache : Bool)
    (f : Fault) : Except IoErr WikiFile × Ast × Cache :=
  match L.loadWikiFile fs c p noCache f with
  | (.error e, c) => (.error e, a, c)
  | (.ok file, c) =>
    let a := a.place p file
    match a.find p with
    | some file => (.ok file, a, c)
    | none => (.error .notFound, a, c)

/-- Looking a file up as `convert` does (convert.rs:148-165): a loaded one, otherwise
`load_file`. -/
def Ast.obtain (L : CliLib) (fs : Files) (a : Ast) (c : Cache) (p : Path) (noCache : Bool)
    (f : Fault) : Except IoErr WikiFile × Ast × Cache :=
  match a.find p with
  | some file => (.ok file, a, c)
  | none => a.loadFile L fs c p noCache f

/-! ### Formatting in place -/

/-- The text `format` computes for a file (format.rs:71-95): read, parse, write as vimwiki
text. `fmt` stands for `page.to_vimwiki_string(config)`. -/
def formatted (L : CliLib) (fmt : Page → Option Str) (fs : Files) (p : Path) :
    Except IoErr Str :=
  match fs.read p with
  | .error e => .error e
  | .ok text =>
    match L.parse text with
    | .error e => .error e
    | .ok pg => match fmt pg with
      | none => .error .invalidData
      | some out => .ok out

/-- `process_file` with `--inline` (format.rs:58-107), run to its end. -/
def formatInline (L : CliLib) (fmt : Page → Option Str) (fs : Files) (p : Path) :
    Except IoErr Unit × Files :=
  match formatted L fmt fs p with
  | .error e => (.error e, fs)
  | .ok out => (.ok (), fs.set p out)

/-- The same, interrupted when `n` bytes of the new text have been written. `std::fs::write`
(format.rs:100) truncates the file, then writes. -/
def formatCrash (L : CliLib) (fmt : Page → Option Str) (fs : Files) (p : Path) (n : Nat) :
    Files :=
  match formatted L fmt fs p with
  | .error _ => fs
  | .ok out => fs.set p (out.take n)

/-- `format` over the files it is given (format.rs:8-56): it stops at the first error. The
walk over directories is left to the caller: `ps` are the files in the order they are
met. -/
def formatAll (L : CliLib) (fmt : Page → Option Str) : Files → List Path →
    Except IoErr Unit × Files
  | fs, [] => (.ok (), fs)
  | fs, p :: ps =>
    match formatInline L fmt fs p with
    | (.error e, fs) => (.error e, fs)
    | (.ok (), fs) => formatAll L fmt fs ps

/-! ### Languages -/

/-- `Language` (lang/mod.rs:36-43). -/
inductive Language where
  | vimwiki (s : Str)
  | markdown (s : Str)
  | mediawiki (s : Str)
deriving DecidableEq, Repr

/-- The element types a text can be parsed as (lang/mod.rs:107-213), one for each use of
`impl_from_language!`. -/
inductive Kind where
  | page | block | inlines | inline | blockquote | codeInline | comment | lineComment
  | multiLineComment | definitionList | divider | header | link | list | listItem | mathInline
  | mathBlock | paragraph | placeholder | codeBlock | table | tags | text | decoratedText
  | keyword
deriving DecidableEq, Repr

/-- A parsed element of any of these types. The model has one type for all blocks and one for
all inline elements. -/
inductive Parsed where
  | page (p : Page)
  | block (b : Located Block)
  | inlines (x : Located Inlines)
  | inline (x : Located Inline)
  | item (i : Located ListItem)

namespace Kind

/-- The parser named in each use of the macro (lang/mod.rs:107-213). -/
def parser (env : Env) : Kind → P Parsed
  | .page => P.map (Vw.page env) .page
  | .block => P.map (Vw.topLevel env) .block
  | .inlines => P.map (Vw.inlineContainer env) .inlines
  | .inline => P.map (Vw.inlineElement env) .inline
  | .blockquote => P.map Vw.blockquote .block
  | .codeInline => P.map Vw.codeInline .inline
  | .comment => P.map Vw.comment .inline
  | .lineComment => P.map Vw.lineComment .inline
  | .multiLineComment => P.map Vw.multiLineComment .inline
  | .definitionList => P.map (Vw.definitionList env) .block
  | .divider => P.map Vw.divider .block
  | .header => P.map (Vw.header env) .block
  | .link => P.map (Vw.link env) .inline
  | .list => P.map (Vw.list env) .block
  | .listItem => P.map (fun s => Vw.listItemOf (nestedF env s.remainingLen) s)
      (fun x => .item x.2)
  | .mathInline => P.map Vw.mathInline .inline
  | .mathBlock => P.map Vw.mathBlock .block
  | .paragraph => P.map (Vw.paragraph env) .block
  | .placeholder => P.map (Vw.placeholder env) .block
  | .codeBlock => P.map Vw.codeBlock .block
  | .table => P.map (Vw.table env) .block
  | .tags => P.map Vw.tags .inline
  | .text => P.map (Vw.text env) .inline
  | .decoratedText => P.map (Vw.decoratedText env) .inline
  | .keyword => P.map Vw.keyword .inline

/-- `FromLanguage::from_language` as generated by `impl_from_language!`
(lang/mod.rs:94-106), which `Language::parse` calls (lang/mod.rs:89-91). What follows the
parsed element is dropped. `Error::unsupported` is one more error. -/
def fromLanguage (env : Env) (k : Kind) : Language → Res Parsed
  | .vimwiki s => k.parser env (Span.ofStr s)
  | .markdown _ => .err
  | .mediawiki _ => .err

end Kind

end Vw
