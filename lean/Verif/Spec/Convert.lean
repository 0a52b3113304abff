import Verif.Model.Convert
import Verif.Spec.Cli

/-! # What converting wikis to HTML is supposed to do -/

namespace Vw

/-- The configuration for a page: its wiki is the deepest that contains it (C49). -/
def pageCfg (c : HtmlCfg) (p : Path) : HtmlCfg := { c with page := p, wikiIndex := c.wikiIndexByPath p }

/-- The HTML of the page in a file: the file is read and parsed, without any cache, and converted with
the configuration for the page. -/
def PageHtmlIs (L : CliLib) (H : HtmlLib) (c : HtmlCfg) (fs : Files) (p : Path) (html : Str) : Prop :=
  ∃ f, L.fresh fs p = .ok f ∧ toHtmlPage H (pageCfg c p) (pageHtml H (pageCfg c p) f.data) = .ok html

/-- The output file of a page: that of the deepest wiki that contains it (C48, C49), or of the default
wiki. -/
def OutputIs (c : HtmlCfg) (p out : Path) : Prop :=
  (((c.wikiIndexByPath p).bind fun i => c.wikis[i]?).getD c.defaultWiki).outputPath p b!"html" = some out

/-- Why a page cannot be converted: it cannot be read or parsed, or the HTML cannot be written. -/
inductive PageFails (L : CliLib) (H : HtmlLib) (c : HtmlCfg) (fs : Files) (p : Path) : ConvErr → Prop where
  | load {e} (h : L.fresh fs p = .error e) : PageFails L H c fs p (.io e)
  | html {e f} (h : L.fresh fs p = .ok f)
      (h' : toHtmlPage H (pageCfg c p) (pageHtml H (pageCfg c p) f.data) = .error e) : PageFails L H c fs p (.html e)
  | out {f} (h : L.fresh fs p = .ok f) (h' : ∀ o, ¬ OutputIs c p o) : PageFails L H c fs p (.html .panic)

/-- The pages to convert: the files with the extension, below each directory in turn. -/
def planPages (fs : Files) (plan : List (Path × Str × Wiki)) : List Path :=
  plan.flatMap fun e => fs.walk e.1 e.2.1

/-- The style sheet in the output directory of a wiki. -/
def cssPath (w : Wiki) : Path := w.pathHtml.join (Path.ofStr b!"style.css")

/-- Files written one after the other. -/
def writeAll (fs : Files) (ws : List (Path × Str)) : Files := ws.foldl (fun fs x => fs.set x.1 x.2) fs

end Vw
