import Verif.Model.Cost
import Verif.Spec.Cost
import Verif.Lemmas.BlockRun

/-!
# Counting how often lists are read
-/

namespace Vw
open P Scan

variable {α β : Type} {env : Env} {s s' s1 : Span}

namespace K

/-- The counted parser gives the results of the parser. -/
def Er (k : K α) (p : P α) : Prop := ∀ s, (k s).1 = p s

theorem er_lift (p : P α) : Er (lift p) p := fun _ => rfl

theorem er_tick {k : K α} {p : P α} (h : Er k p) : Er (tick k) p := h

theorem er_bind {k : K α} {p : P α} {f : α → K β} {g : α → P β} (h : Er k p) (hf : ∀ a, Er (f a) (g a)) :
    Er (bind k f) (P.bind p g) := by
  intro s
  unfold bind P.bind
  rw [← h s]
  rcases hk : k s with ⟨r, n⟩
  cases r with
  | ok s' a => exact hf a s'
  | _ => rfl

theorem er_map {k : K α} {p : P α} {f : α → β} (h : Er k p) : Er (map k f) (P.map p f) := by
  intro s
  unfold map P.map
  rw [← h s]
  rcases hk : k s with ⟨r, n⟩
  cases r <;> rfl

theorem er_alt {k l : K α} {p q : P α} (h : Er k p) (h' : Er l q) : Er (alt k l) (P.alt p q) := by
  intro s
  unfold alt P.alt
  rw [← h s]
  rcases hk : k s with ⟨r, n⟩
  cases r with
  | err => exact h' s
  | _ => rfl

theorem er_alts_one {k : K α} {p : P α} (h : Er k p) : Er (alts [k]) (P.alts [p]) := h

theorem er_alts {k l : K α} {p q : P α} {ks : List (K α)} {ps : List (P α)} (h : Er k p)
    (h' : Er (alts (l :: ks)) (P.alts (q :: ps))) : Er (alts (k :: l :: ks)) (P.alts (p :: q :: ps)) :=
  er_alt h h'

theorem Er.eq {k : K α} {p : P α} (h : Er k p) : (fun s => (k s).1) = p := funext h

theorem er_not {k : K α} {p : P α} (h : Er k p) : Er (not k) (P.not p) := by
  intro s
  show P.not (fun s => (k s).1) s = _
  rw [h.eq]

theorem er_allConsuming {k : K α} {p : P α} (h : Er k p) : Er (allConsuming k) (P.allConsuming p) := by
  intro s
  show P.allConsuming (fun s => (k s).1) s = _
  rw [h.eq]

theorem er_deeper {k : K α} {p : P α} (h : Er k p) : Er (deeper k) (Scan.deeper p) := by
  intro s
  show Scan.deeper (fun s => (k s).1) s = _
  rw [h.eq]

theorem er_located {k : K α} {p : P α} (h : Er k p) : Er (located k) (Scan.located p) := by
  intro s
  show Scan.located (fun s => (k s).1) s = _
  rw [h.eq]

theorem er_loop {k : K α} {p : P α} (h : Er k p) : ∀ n, Er (many0Loop k n) (P.many0Loop p n) := by
  intro n
  induction n with
  | zero => intro s; rfl
  | succ n ih =>
    intro s
    unfold many0Loop P.many0Loop
    rw [← h s]
    rcases hk : k s with ⟨r, m⟩
    cases r with
    | ok s' a =>
      simp only
      by_cases he : s' = s
      · rw [if_pos he, if_pos he]
      · rw [if_neg he, if_neg he, ← ih s']
        rcases hl : many0Loop k n s' with ⟨r, j⟩
        cases r <;> rfl
    | _ => rfl

theorem er_many0 {k : K α} {p : P α} (h : Er k p) : Er (many0 k) (P.many0 p) := fun s => er_loop h _ s

theorem er_many1 {k : K α} {p : P α} (h : Er k p) : Er (many1 k) (P.many1 p) :=
  er_bind h fun _ => er_bind (er_many0 h) fun _ => er_lift _

end K

open K

theorem er_continue {k : K (Located Block)} {p : P (Located Block)} (h : Er k p) :
    Er (continueParagraphK env k) (continueParagraphOf env p) :=
  er_bind (er_lift _) fun _ => er_bind (er_lift _) fun _ => er_bind (er_not h) fun _ => er_lift _

theorem er_paraLine {k : K (Located Block)} {p : P (Located Block)} (h : Er k p) :
    Er (paraLineK env k) (paraLine env p) :=
  er_bind (er_continue h) fun _ => er_lift _

theorem er_paragraph {k : K (Located Block)} {p : P (Located Block)} (h : Er k p) :
    Er (paragraphK env k) (paragraphOf env p) :=
  er_located (er_map (er_many1 (er_paraLine h)))

theorem er_tail {k : K (Located Block)} {p : P (Located Block)} {n : Nat} (h : Er k p) :
    Er (listItemTailK k n) (listItemTailOf p n) :=
  er_bind (er_lift _) fun _ => er_bind (er_deeper h) fun _ =>
    er_bind (er_many0 (er_bind (er_lift _) fun _ => er_deeper h)) fun _ => er_lift _

theorem er_item {k : K (Located Block)} {p : P (Located Block)} (h : Er k p) : Er (listItemK k) (listItemOf p) := by
  refine er_bind (er_lift _) fun _ => er_bind (er_lift _) fun n s => ?_
  have hb : ∀ s, (listItemBodyK k n s).1 = located (P.map (P.pair listItemPrefix (listItemTailOf p n))
          (fun ((ty, suffix), (todo, contents)) =>
            (⟨ty, suffix, 0, contents, todo⟩ : ListItem))) s :=
    er_located (er_map (er_bind (er_lift _) fun _ => er_bind (er_tail h) fun _ => er_lift _))
  simp only
  cases itemLines n s with
  | ok s1 a =>
    simp only
    rw [← hb a]
    rcases listItemBodyK k n a with ⟨r, j⟩
    cases r <;> rfl
  | _ => rfl

theorem er_list {k : K (Located Block)} {p : P (Located Block)} (h : Er k p) : Er (listK k) (listOf p) :=
  er_tick (er_located (er_bind (er_deeper (er_item h)) fun _ =>
    er_bind (er_many0 (er_bind (er_lift _) fun _ => er_map (er_deeper (er_item h)))) fun _ => er_lift _))

theorem er_nested {k : K (Located Block)} {p : P (Located Block)} (h : Er k p) : Er (nestedK env k) (nestedOf env p) :=
  er_alts (er_lift _) (er_alts h (er_alts (er_lift _) (er_alts (er_lift _) (er_alts (er_lift _) (er_alts (er_lift _)
    (er_alts_one (er_paragraph h)))))))

theorem er_nestedF : ∀ n, Er (nestedFK env n) (nestedF env n)
  | 0 => fun _ => rfl
  | n + 1 => er_nested (er_list (er_nestedF n))

theorem er_listTop : Er (listTopK env) (list env) := fun s => er_list (er_nestedF _) s

theorem er_topLevel : Er (topLevelK env) (topLevel env) :=
  er_alts (er_lift _) (er_alts (er_lift _) (er_alts er_listTop (er_alts (er_lift _) (er_alts (er_lift _) (er_alts (er_lift _)
    (er_alts (er_lift _) (er_alts (er_lift _) (er_alts (er_lift _) (er_alts_one (er_paragraph er_listTop))))))))))

theorem er_maybeBlock : Er (maybeBlockK env) (maybeBlock env) := er_alt (er_lift _) (er_map er_topLevel)

theorem er_page : Er (pageK env) (page env) := er_map (er_allConsuming (er_many0 er_maybeBlock))

theorem parsePageK_fst (env : Env) (text : Str) : (parsePageK env text).1 = parsePage env text := er_page _

end Vw
