import Verif.Model.Uri
import Verif.Model.Text

/-!
# Paths, wikis and links of the HTML output

Models `/repo/vimwiki-core/src/lang/output/html/utils.rs` and the path functions of
`/repo/vimwiki-core/src/lang/output/html/config.rs`.

A `std::path::Path` is the list of its `components()` on Unix. Everything the code does
with paths (comparison, `starts_with`, `strip_prefix`, `parent`, `join`, conversion to
a link) is defined on components, so repeated and trailing slashes are not represented.
-/

namespace Vw

/-- `std::path::Component` without `Prefix`, which does not exist on Unix. -/
inductive Comp where
  | root
  | cur
  | parent
  | normal (name : Str)
deriving DecidableEq, Repr

/-- The components of a path. -/
abbrev Path := List Comp

namespace Path

/-- The component written as one piece between slashes; empty pieces are skipped. -/
def pieceComp (s : Str) : Option Comp :=
  if s = [] then none
  else if s = b!"." then some .cur
  else if s = b!".." then some .parent
  else some (.normal s)

/-- `Path::components` after the root: `.` is kept only in front of a relative path. -/
def pieces : Bool → List Str → Path
  | _, [] => []
  | first, s :: rest =>
    match pieceComp s with
    | none => pieces false rest
    | some .cur => if first then .cur :: pieces false rest else pieces false rest
    | some c => c :: pieces false rest

/-- `Path::new(s).components()` (std). -/
def ofStr (s : Str) : Path :=
  if s.head? = some c!"/" then .root :: pieces false (splitOn c!"/" s)
  else pieces true (splitOn c!"/" s)

/-- `Path::has_root`, which is `is_absolute` on Unix. -/
def hasRoot (p : Path) : Bool := p.head? == some .root

/-- `PathBuf::push` (std): an absolute argument replaces the path; `.` after something
else is not a component. -/
def push (p q : Path) : Path :=
  if hasRoot q then q
  else if p.isEmpty then q
  else p ++ q.filter (· ≠ .cur)

/-- `Path::join`. -/
def join (p q : Path) : Path := push p q

/-- `Path::parent` (std): `none` for the root and the empty path. -/
def parent (p : Path) : Option Path :=
  match p.getLast? with
  | none => none
  | some .root => none
  | some _ => some p.dropLast

/-- `PathBuf::pop`: does nothing when there is no parent. -/
def pop (p : Path) : Path := (parent p).getD p

/-- `components.collect::<PathBuf>()`. -/
def collect (cs : List Comp) : Path := cs.foldl (fun p c => push p [c]) []

/-- `Path::starts_with`. -/
def startsWith (p base : Path) : Bool := base.isPrefixOf p

/-- `Path::strip_prefix(..).ok()`. -/
def stripPrefix (p base : Path) : Option Path :=
  if startsWith p base then some (p.drop base.length) else none

/-- `rsplit_file_at_dot` (std): the part of a file name before the last dot, or all of
it if there is no dot after the first byte. -/
def nameStem (name : Str) : Str :=
  match memrchr (· == c!".") name with
  | none => name
  | some 0 => name
  | some i => name.take i

/-- `Path::extension` of a file name. -/
def nameExt (name : Str) : Option Str :=
  match memrchr (· == c!".") name with
  | none => none
  | some 0 => none
  | some i => some (name.drop (i + 1))

/-- `Path::file_name`. -/
def fileName (p : Path) : Option Str :=
  match p.getLast? with
  | some (.normal n) => some n
  | _ => none

/-- `Path::file_stem`. -/
def fileStem (p : Path) : Option Str := (fileName p).map nameStem

/-- `Path::extension`. -/
def extension (p : Path) : Option Str := (fileName p).bind nameExt

/-- `Path::with_extension` (std): a path without file name is returned as it is. -/
def withExtension (p : Path) (ext : Str) : Path :=
  match fileName p with
  | none => p
  | some n =>
    p.dropLast ++ [.normal (nameStem n ++ (if ext = [] then [] else c!"." :: ext))]

/-- One component in `normalize_path` (utils.rs:86-98). -/
def normStep (ret : Path) : Comp → Path
  | .root => push ret [.root]
  | .cur => ret
  | .parent => pop ret
  | .normal n => push ret [.normal n]

/-- `normalize_path` (utils.rs:75-101). -/
def normalize (p : Path) : Path := p.foldl normStep []

/-- The text of a component in a link (utils.rs:109-116); the lossy conversion of names
is the identity on the UTF-8 names modelled here. -/
def compStr : Comp → Option Str
  | .root => none
  | .cur => some b!"."
  | .parent => some b!".."
  | .normal n => some n

/-- `path_to_uri_string` (utils.rs:105-126). -/
def toUriString (p : Path) : Str :=
  (if hasRoot p then b!"/" else []) ++ joinWith b!"/" (p.filterMap compStr)

/-- `make_path_relative` (utils.rs:389-399). -/
def makeRelative (p : Path) : Path := collect (p.filter (· ≠ .root))

/-- `RelativePathBuf::from_path` of the crate `relative_path`, for a path without
root: `.` is dropped. -/
def toRelative (p : Path) : Path := p.filter (· ≠ .cur)

/-- One component in `relative_traversal` of the crate `relative_path`: `..` removes the
name before it and is kept when there is none. -/
def travStep (buf : Path) : Comp → Path
  | .parent =>
    match buf.getLast? with
    | some (.normal _) => buf.dropLast
    | _ => buf ++ [.parent]
  | .normal n => buf ++ [.normal n]
  | _ => buf

/-- `relative_traversal` of the crate `relative_path`. -/
def traverse (p : Path) : Path := p.foldl travStep []

/-- Drops the common prefix of two component lists. -/
def dropCommon : Path → Path → Path × Path
  | f :: fs, t :: ts => if f = t then dropCommon fs ts else (f :: fs, t :: ts)
  | fs, ts => (fs, ts)

/-- `RelativePath::relative` of the crate `relative_path`. -/
def relative (src target : Path) : Path :=
  let r := dropCommon (traverse src) (traverse target)
  if r.1.any (· == .parent) then []
  else r.1.map (fun _ => .parent) ++ r.2

/-- The path of `make_relative_link` (utils.rs:365-386), before it is read as a URI
reference. -/
def relativeLink (src target : Path) : Path :=
  let r := relative (toRelative (makeRelative src)) (toRelative (makeRelative target))
  (stripPrefix r [.parent]).getD r

end Path

/-- `HtmlWikiConfig` (config.rs:306-337). -/
structure Wiki where
  path : Path
  pathHtml : Path
  name : Option Str
  cssName : Str
  ext : Str
  diaryRel : Path
deriving DecidableEq, Repr

namespace Wiki

/-- `path_within` (config.rs:387-389). -/
def pathWithin (w : Wiki) (p : Path) : Option Path := p.stripPrefix w.path

/-- `path_to_root` (config.rs:362-383). -/
def pathToRoot (w : Wiki) (p : Path) : Option Path :=
  (w.pathWithin p).bind fun rel =>
    if rel.length > 0 then
      some ((List.range (rel.length - 1)).foldl (fun r _ => r.push [.parent]) [])
    else none

/-- The input of `make_output_path` as a path inside the wiki (config.rs:413-418). -/
def inputPath (w : Wiki) (input : Path) : Path :=
  if !input.hasRoot || !input.startsWith w.path then w.path.join input.makeRelative
  else input

/-- `make_output_path` (config.rs:409-428); `none` is the panic of `expect`. -/
def outputPath (w : Wiki) (input : Path) (ext : Str) : Option Path :=
  ((w.inputPath input).stripPrefix w.path).map fun rel =>
    (w.pathHtml.join rel).withExtension ext

end Wiki

/-- The parts of `HtmlConfig` (config.rs:35-75) and of the external world that the
output reads. -/
structure HtmlCfg where
  wikis : List Wiki
  /-- `runtime.wiki_index` -/
  wikiIndex : Option Nat
  /-- `runtime.page` -/
  page : Path
  /-- `HtmlWikiConfig::default()`, which depends on the home directory. -/
  defaultWiki : Wiki
  /-- `header.table_of_contents` -/
  toc : Str
  /-- `paragraph.ignore_newline` -/
  ignoreNewline : Bool
  /-- `comment.include` -/
  comments : Bool
  /-- `template.text` -/
  templateText : Str
  /-- `code.server_side` -/
  serverSide : Bool
  /-- `template.dir` -/
  templateDir : Path := [.normal b!"vimwiki", .normal b!"templates"]
  /-- `template.name`, which nothing reads. -/
  templateName : Str := b!"default"
  /-- `template.ext`, which nothing reads. -/
  templateExt : Str := b!"tpl"
  /-- `list.ignore_newline`, which is read and not used (mod.rs:290, 353). -/
  listIgnoreNewline : Bool := true
  /-- `link.base_url`, which nothing reads. -/
  baseUrl : Str := b!"https://localhost/"
  /-- `link.canonicalize`, which nothing reads. -/
  canonicalize : Bool := false
  /-- `link.use_ugly_urls`, which nothing reads. -/
  uglyUrls : Bool := false

namespace HtmlCfg

/-- `find_wiki_by_index` (config.rs:189-191). -/
def wikiByIndex (c : HtmlCfg) (i : Nat) : Option Wiki := c.wikis[i]?

/-- `find_map` over the enumerated wikis (config.rs:200-206). -/
def indexByName (name : Str) : Nat → List Wiki → Option Nat
  | _, [] => none
  | i, w :: ws => if w.name = some name then some i else indexByName name (i + 1) ws

/-- `find_wiki_index_by_name` (config.rs:195-207). -/
def wikiIndexByName (c : HtmlCfg) (name : Str) : Option Nat := indexByName name 0 c.wikis

/-- `find_wiki_by_name` (config.rs:211-217). -/
def wikiByName (c : HtmlCfg) (name : Str) : Option Wiki :=
  (c.wikiIndexByName name).bind c.wikiByIndex

/-- `filter` and `max_by_key` over the enumerated wikis (config.rs:232-237): of several
equally deep wikis the last one is kept. -/
def deepest (p : Path) : Nat → Option (Nat × Nat) → List Wiki → Option (Nat × Nat)
  | _, best, [] => best
  | i, best, w :: ws =>
    deepest p (i + 1)
      (if p.startsWith w.path then
        match best with
        | none => some (i, w.path.length)
        | some (j, n) => if w.path.length ≥ n then some (i, w.path.length) else some (j, n)
       else best) ws

/-- `find_wiki_index_by_path` (config.rs:225-238). -/
def wikiIndexByPath (c : HtmlCfg) (p : Path) : Option Nat :=
  (deepest p 0 none c.wikis).map (·.1)

/-- `find_active_wiki` (config.rs:180-186). -/
def activeWiki (c : HtmlCfg) : Option Wiki := c.wikiIndex.bind c.wikiByIndex

/-- `to_tmp_wiki` (config.rs:278-287). -/
def tmpWiki (c : HtmlCfg) : Wiki := { c.defaultWiki with path := c.page.parent.getD [] }

/-- `to_current_wiki` (config.rs:167-171). -/
def currentWiki (c : HtmlCfg) : Wiki := c.activeWiki.getD c.tmpWiki

/-- `as_active_page_path_within_wiki` (config.rs:156-162); `none` is the panic of
`expect`. -/
def pageWithin (c : HtmlCfg) : Option Path := c.currentWiki.pathWithin c.page

/-- `to_active_page_path_to_wiki_root` (config.rs:124-128). -/
def pageToRoot (c : HtmlCfg) : Path :=
  (c.activeWiki.bind fun w => w.pathToRoot c.page).getD []

end HtmlCfg

/-- `to_path_buf` (links/data.rs:157-174). Segments of a URI contain no slash. -/
def LinkData.toPath (d : LinkData) : Path :=
  let p := d.uri.segments.foldl (fun (p : Path) s => Path.push p (Path.ofStr s)) []
  if d.uri.absolute then Path.join [.root] p else p

/-- The external functions used when resolving links. -/
structure LinkLib where
  /-- `RelativeReference::try_from` followed by `URIReference::from`. -/
  relRef : Str → Option Uri
  /-- Whether `Fragment::try_from` accepts the text. -/
  fragOk : Str → Bool
  /-- `date.format("%Y-%m-%d")` -/
  dateStr : Date → Str

/-- Why no HTML is produced; `panic` stands for the panics of the code and `diverge` for
a loop that does not end. -/
inductive HtmlErr where
  | missingIndex (i : Nat)
  | missingName (n : Str)
  | relativeReference
  | theme
  | template
  | panic
  | diverge
deriving DecidableEq, Repr

/-- `make_relative_link` (utils.rs:365-386). -/
def makeRelativeLink (L : LinkLib) (src target : Path) : Except HtmlErr Uri :=
  match L.relRef (Path.relativeLink src target).toUriString with
  | some u => .ok u
  | none => .error .relativeReference

/-- The anchor part (utils.rs:207-209 and the same lines of the other variants). -/
def withAnchor (L : LinkLib) (d : LinkData) (u : Uri) : Uri :=
  match d.toAnchor with
  | none => u
  | some a =>
    { u with fragment := if L.fragOk (joinWith b!"-" a) then some (joinWith b!"-" a) else none }

/-- A link from the output of a page to an output path; `none` is a panic. -/
def linkTo (L : LinkLib) (srcOut : Path) (target : Option Path) : Except HtmlErr Uri :=
  match target with
  | none => .error .panic
  | some t => makeRelativeLink L srcOut t

/-- The output path of a local target (utils.rs:188-199, 315-326). -/
def localOut (w : Wiki) (src : Path) (d : LinkData) (path : Path) (ext : Str) : Option Path :=
  if d.uri.absolute then w.outputPath path ext
  else w.outputPath ((src.parent.getD []).join path) ext

/-- `resolve_link` (utils.rs:157-342). -/
def resolveLink (L : LinkLib) (c : HtmlCfg) (srcWiki : Wiki) (src : Path) (l : Link) :
    Except HtmlErr Uri :=
  match srcWiki.outputPath src b!"html" with
  | none => .error .panic
  | some srcOut =>
    match l with
    | .wiki d =>
      if d.isLocal && !d.isLocalAnchor then
        (linkTo L srcOut (localOut srcWiki src d
          (if d.isPathDir then d.toPath.push (Path.ofStr b!"index") else d.toPath)
          b!"html")).map (withAnchor L d)
      else .ok d.uri
    | .indexed i d =>
      match c.wikiByIndex i with
      | none => .error (.missingIndex i)
      | some w => (linkTo L srcOut (w.outputPath d.toPath b!"html")).map (withAnchor L d)
    | .named n d =>
      match c.wikiByName n with
      | none => .error (.missingName n)
      | some w => (linkTo L srcOut (w.outputPath d.toPath b!"html")).map (withAnchor L d)
    | .diary dt d =>
      (linkTo L srcOut (srcWiki.outputPath
        ((srcWiki.path.join srcWiki.diaryRel).join (Path.ofStr (L.dateStr dt)))
        b!"html")).map (withAnchor L d)
    | .raw d => .ok d.uri
    | .transclusion d =>
      if d.isLocal then
        linkTo L srcOut (localOut srcWiki src d d.toPath (d.toPath.extension.getD []))
      else .ok d.uri

end Vw
