import Verif.Lemmas.ReadPage
import Verif.Lemmas.Table
import Verif.Spec.WellFormed

/-!
# What parsers yield

`Always p Q`: every result of `p` satisfies `Q`.
-/

namespace Vw
open P Scan

variable {α β γ : Type} {env : Env}

/-- Every result of the parser satisfies `Q`. -/
def Always (p : P α) (Q : α → Prop) : Prop := ∀ s s' x, p s = .ok s' x → Q x

namespace Always

theorem mono {p : P α} {Q R : α → Prop} (h : Always p Q) (hQ : ∀ x, Q x → R x) : Always p R :=
  fun s s' x e => hQ x (h s s' x e)

theorem any (p : P α) : Always p fun _ => True := fun _ _ _ _ => trivial

theorem pure {Q : α → Prop} {a : α} (h : Q a) : Always (P.pure a) Q := by
  intro s s' x e
  cases e
  exact h

theorem bind {p : P α} {f : α → P β} {Q : α → Prop} {R : β → Prop} (hp : Always p Q)
    (hf : ∀ a, Q a → Always (f a) R) : Always (P.bind p f) R := by
  intro s s' x e
  obtain ⟨s1, a, h1, h2⟩ := bind_inv e
  exact hf a (hp _ _ _ h1) _ _ _ h2

theorem bind' {p : P α} {f : α → P β} {R : β → Prop} (hf : ∀ a, Always (f a) R) : Always (P.bind p f) R :=
  bind (any p) fun a _ => hf a

theorem map {p : P α} {f : α → β} {Q : α → Prop} {R : β → Prop} (hp : Always p Q)
    (hf : ∀ a, Q a → R (f a)) : Always (P.map p f) R := by
  intro s s' x e
  obtain ⟨a, h1, rfl⟩ := map_inv e
  exact hf a (hp _ _ _ h1)

theorem map' {p : P α} {f : α → β} {R : β → Prop} (hf : ∀ a, R (f a)) : Always (P.map p f) R :=
  map (any p) fun a _ => hf a

theorem value {p : P α} {b : β} {R : β → Prop} (h : R b) : Always (P.value b p) R := map' fun _ => h

theorem alt {p q : P α} {Q : α → Prop} (hp : Always p Q) (hq : Always q Q) : Always (P.alt p q) Q := by
  intro s s' x e
  rcases alt_inv e with h | h
  · exact hp _ _ _ h
  · exact hq _ _ _ h.2

theorem alts_nil {Q : α → Prop} : Always (alts ([] : List (P α))) Q := by
  intro s s' x e
  cases e

theorem alts_cons {p : P α} {ps : List (P α)} {Q : α → Prop} (hp : Always p Q) (hq : Always (alts ps) Q) :
    Always (alts (p :: ps)) Q := by
  cases ps with
  | nil => exact hp
  | cons q ps => exact alt hp hq

theorem verify {p : P α} {f : α → Bool} {Q : α → Prop} (hp : Always p Q) : Always (P.verify p f) fun x => Q x ∧ f x = true := by
  intro s s' x e
  obtain ⟨h1, h2⟩ := verify_inv e
  exact ⟨hp _ _ _ h1, h2⟩

theorem mapOpt {p : P α} {f : α → Option β} {R : β → Prop} (hf : ∀ a b, f a = some b → R b) : Always (P.mapOpt p f) R := by
  intro s s' x e
  unfold P.mapOpt at e
  split at e
  · split at e
    next b hb => cases e; exact hf _ _ hb
    next => cases e
  all_goals cases e

theorem opt {p : P α} {Q : α → Prop} (hp : Always p Q) : Always (P.opt p) fun x => ∀ a, x = some a → Q a := by
  intro s s' x e a ha
  subst ha
  unfold P.opt at e
  split at e
  next h => cases e; exact hp _ _ _ h
  all_goals cases e

theorem mapParser {p : P Span} {q : P β} {Q : β → Prop} (hq : Always q Q) : Always (P.mapParser p q) Q := by
  intro s s' x e
  unfold P.mapParser at e
  split at e
  · split at e
    next h => cases e; exact hq _ _ _ h
    all_goals cases e
  all_goals cases e

theorem preceded {p : P α} {q : P β} {Q : β → Prop} (hq : Always q Q) : Always (P.preceded p q) Q :=
  bind' fun _ => hq

theorem terminated {p : P α} {q : P β} {Q : α → Prop} (hp : Always p Q) : Always (P.terminated p q) Q :=
  bind hp fun _ ha => bind' fun _ => pure ha

theorem delimited {p : P α} {q : P β} {r : P γ} {Q : β → Prop} (hq : Always q Q) : Always (P.delimited p q r) Q :=
  bind' fun _ => bind hq fun _ ha => bind' fun _ => pure ha

theorem pair {p : P α} {q : P β} {Q : α → Prop} {R : β → Prop} (hp : Always p Q) (hq : Always q R) :
    Always (P.pair p q) fun x => Q x.1 ∧ R x.2 :=
  bind hp fun _ ha => bind hq fun _ hb => pure ⟨ha, hb⟩

theorem deeper {p : P α} {Q : α → Prop} (hp : Always p Q) : Always (Scan.deeper p) Q := by
  intro s s' x e
  unfold Scan.deeper at e
  split at e
  · cases e
  · split at e
    next h => cases e; exact hp _ _ _ h
    all_goals cases e

theorem located {p : P α} {Q : α → Prop} (hp : Always p Q) : Always (Scan.located p) fun x => Q x.inner := by
  intro s s' x e
  unfold Scan.located at e
  split at e
  next h =>
    split at e
    · cases e
    · cases e; exact hp _ _ _ h
  all_goals cases e

theorem many0 {p : P α} {Q : α → Prop} (hp : Always p Q) : Always (P.many0 p) fun xs => ∀ x ∈ xs, Q x := by
  have loop : ∀ n, Always (many0Loop p n) fun xs => ∀ x ∈ xs, Q x := by
    intro n
    induction n with
    | zero => intro s s' x e; cases e
    | succ n ih =>
      intro s s' xs e
      unfold many0Loop at e
      split at e
      · cases e; simp
      · cases e
      · cases e
      next h =>
        split at e
        · cases e
        · split at e
          next h2 =>
            cases e
            intro x hx
            rcases List.mem_cons.1 hx with rfl | hx
            · exact hp _ _ _ h
            · exact ih _ _ _ h2 x hx
          all_goals cases e
  exact fun s s' xs e => loop _ _ _ _ e

theorem many1 {p : P α} {Q : α → Prop} (hp : Always p Q) : Always (P.many1 p) fun xs => xs ≠ [] ∧ ∀ x ∈ xs, Q x :=
  bind hp fun a ha => bind (many0 hp) fun as has => pure ⟨by simp, by
    intro x hx
    rcases List.mem_cons.1 hx with rfl | hx
    · exact ha
    · exact has x hx⟩

theorem sepTail {sep : P β} {p : P α} {Q : α → Prop} (hp : Always p Q) : Always (P.sepTail sep p) fun xs => ∀ x ∈ xs, Q x := by
  have loop : ∀ n, Always (sepLoop sep p n) fun xs => ∀ x ∈ xs, Q x := by
    intro n
    induction n with
    | zero => intro s s' x e; cases e
    | succ n ih =>
      intro s s' xs e
      unfold sepLoop at e
      split at e
      · cases e; simp
      · cases e
      · cases e
      · split at e
        · cases e
        · split at e
          · cases e; simp
          · cases e
          · cases e
          next h =>
            split at e
            next h2 =>
              cases e
              intro x hx
              rcases List.mem_cons.1 hx with rfl | hx
              · exact hp _ _ _ h
              · exact ih _ _ _ h2 x hx
            all_goals cases e
  exact fun s s' xs e => loop _ _ _ _ e

theorem separatedList1 {sep : P β} {p : P α} {Q : α → Prop} (hp : Always p Q) :
    Always (P.separatedList1 sep p) fun xs => xs ≠ [] ∧ ∀ x ∈ xs, Q x :=
  bind hp fun a ha => bind (sepTail hp) fun as has => pure ⟨by simp, by
    intro x hx
    rcases List.mem_cons.1 hx with rfl | hx
    · exact ha
    · exact has x hx⟩

theorem allConsuming {p : P α} {Q : α → Prop} (hp : Always p Q) : Always (P.allConsuming p) Q := by
  intro s s' x e
  unfold P.allConsuming at e
  split at e
  next h =>
    split at e
    · cases e; exact hp _ _ _ h
    · cases e
  all_goals cases e

end Always

/-! ## Maps -/

theorem map_insert_distinct {m : Map} (h : DistinctKeys m) (k v : Str) : DistinctKeys (m.insert k v) := by
  unfold DistinctKeys Map.insert
  rw [List.map_cons, List.nodup_cons]
  refine ⟨by simp, ?_⟩
  exact (List.Sublist.map _ List.filter_sublist).nodup h

theorem collect_distinct (ps : List (Str × Str)) : DistinctKeys (Map.collect ps) := by
  unfold Map.collect
  have : ∀ (ps : List (Str × Str)) (m : Map), DistinctKeys m → DistinctKeys (ps.foldl (fun m e => Map.insert m e.1 e.2) m) := by
    intro ps
    induction ps with
    | nil => exact fun m h => h
    | cons p ps ih => exact fun m h => ih _ (map_insert_distinct h _ _)
  exact this ps [] List.nodup_nil

/-! ## Links -/

theorem linkProperties_always : Always linkProperties DistinctKeys :=
  .bind' fun _ => .map' fun _ => collect_distinct _

theorem linkDescriptionOf_always {p : P LinkData} (hp : Always p LinkData.Valid) : Always (linkDescriptionOf p) Description.Valid := by
  refine .bind' fun _ => .mapParser (.alt (.map (.located (.mapParser hp)) ?_) (.map' fun _ => by simp [Description.Valid]))
  rintro ⟨⟨u, d, ps⟩, r⟩ ⟨h1, h2⟩
  cases d with
  | none => simpa [Description.Valid] using h2
  | some d => simp only [Description.Valid]; exact ⟨h1 d rfl, h2⟩

theorem linkDataF_always : ∀ n, Always (linkDataF env n) LinkData.Valid
  | 0 => fun s s' x e => by cases e
  | n + 1 => .bind' fun _ => .bind (.opt (linkDescriptionOf_always (linkDataF_always n))) fun _ hd =>
      .bind (.opt linkProperties_always) fun _ hp => .pure ⟨hd, hp⟩

theorem linkData_always : Always (linkData env) LinkData.Valid := fun s s' x e => linkDataF_always _ s s' x e

theorem linkDescription_always : Always (linkDescription env) Description.Valid :=
  linkDescriptionOf_always linkData_always

theorem desc_valid {u : Uri} {d : Option Description} (h : ∀ a, d = some a → a.Valid) : (⟨u, d, none⟩ : LinkData).Valid :=
  ⟨h, fun _ e => by cases e⟩

/-- A well-formed element that decorations can contain. -/
def LinkWF (x : Located Inline) : Prop := x.inner.WF ∧ x.inner.InDeco

theorem parseU32_lt {s : Str} {n : Nat} (h : parseU32 s = some n) : n < 4294967296 := by
  unfold parseU32 at h
  have key : ∀ ds : Str, (if ds.isEmpty then none else match digitsVal 0 ds with
      | some n => if n < 4294967296 then some n else none
      | none => none) = some n → n < 4294967296 := by
    intro ds h
    split at h
    · cases h
    · split at h
      · split at h
        · cases h; assumption
        · cases h
      · cases h
  exact key _ h

theorem Always.locDeco {p : P Inline} (h : Always p fun x => x.WF ∧ x.InDeco) : Always (Scan.located p) LinkWF := Always.located h

theorem link_always : Always (link env) LinkWF := by
  have one : ∀ {p : P Inline}, Always p (fun x => x.WF ∧ x.InDeco) → Always (located p) LinkWF := fun h => .located h
  refine .alts_cons (one ?_) (.alts_cons (one ?_) (.alts_cons (one ?_) (.alts_cons (one ?_) (.alts_cons (one ?_) (.alts_cons ?_ .alts_nil)))))
  · refine .mapParser (.bind' fun _ => .bind' fun _ => .bind' fun _ => .bind (.opt linkDescription_always) fun d hd => ?_)
    intro s s' x e
    unfold newDiaryLink at e
    split at e
    · cases e
      exact ⟨by simp only [Inline.WF, Link.WF]; exact ⟨desc_valid hd, trivial⟩, trivial⟩
    · cases e
  · refine .mapParser (.bind (.mapOpt fun _ _ e => parseU32_lt e) fun i hi => .bind' fun _ => .bind (.opt linkDescription_always) fun d hd => .pure ?_)
    exact ⟨by simp only [Inline.WF, Link.WF]; exact ⟨hi, desc_valid hd, trivial⟩, trivial⟩
  · refine .mapParser (.bind' fun _ => .bind' fun _ => .bind (.opt linkDescription_always) fun d hd => .pure ?_)
    exact ⟨by simp only [Inline.WF, Link.WF]; exact ⟨desc_valid hd, trivial⟩, trivial⟩
  · refine .map (.mapParser linkData_always) fun d hd => ?_
    exact ⟨by simp only [Inline.WF, Link.WF]; exact hd, trivial⟩
  · refine .map (.verify (.any _)) fun u hu => ?_
    refine ⟨?_, trivial⟩
    simp only [Inline.WF, Link.WF]
    refine ⟨trivial, trivial, ?_⟩
    have h := hu.2
    split at h
    next sc hsc =>
      refine ⟨sc, ?_, hsc⟩
      have h := List.contains_iff_mem.1 h
      simpa [rawSchemes, linkSchemes] using h
    next => cases h
  · refine .map (.located (.mapParser linkData_always)) fun d hd => ?_
    refine ⟨?_, trivial⟩
    simp only [Located.map, Inline.WF, Link.WF]
    exact hd

/-! ## Inline elements -/

theorem keyword_always : Always keyword LinkWF := by
  refine .locDeco ?_
  have h : ∀ k, Inline.WF (.keyword k) ∧ Inline.InDeco (.keyword k) := fun k => ⟨by simp [Inline.WF], trivial⟩
  exact .alts_cons (.value (h _)) (.alts_cons (.value (h _)) (.alts_cons (.value (h _)) (.alts_cons (.value (h _))
    (.alts_cons (.value (h _)) (.alts_cons (.value (h _)) .alts_nil)))))

theorem wfs_of_all {xs : List (Located Inline)} (h : ∀ x ∈ xs, x.inner.WF) : Inline.WFs xs := by
  induction xs with
  | nil => simp [Inline.WFs]
  | cons x xs ih =>
    obtain ⟨x, r⟩ := x
    simp only [Inline.WFs]
    exact ⟨h ⟨x, r⟩ List.mem_cons_self, ih fun y hy => h y (List.mem_cons_of_mem _ hy)⟩

/-- The contents of a decoration. -/
def DecoWF (xs : Inlines) : Prop := xs ≠ [] ∧ ∀ x ∈ xs, LinkWF x

theorem decorated1_always {p : P Inlines} (hp : Always p DecoWF) (k : Deco) (d : Str) :
    Always (decorated1 p k d) fun x => x.WF ∧ x.InDeco := by
  refine .map (.mapParser (.deeper hp)) fun xs hxs => ⟨?_, trivial⟩
  simp only [Inline.WF]
  exact ⟨hxs.1, fun c hc => (hxs.2 c hc).2, wfs_of_all fun x hx => (hxs.2 x hx).1⟩

theorem decoratedOf_always {p : P Inlines} (hp : Always p DecoWF) : Always (decoratedOf p) LinkWF :=
  .locDeco (.alts_cons (decorated1_always hp _ _) (.alts_cons (decorated1_always hp _ _) (.alts_cons (decorated1_always hp _ _)
    (.alts_cons (decorated1_always hp _ _) (.alts_cons (decorated1_always hp _ _) .alts_nil)))))

theorem textOf_always (deco : P (Located Inline)) : Always (textOf env deco) LinkWF := by
  refine .locDeco ?_
  intro s s' x e
  dsimp only at e
  split at e
  · split at e
    · cases e; exact ⟨by simp [Inline.WF], trivial⟩
    · cases e
  all_goals cases e

theorem decoContentsF_always : ∀ n, Always (decoContentsF env n) DecoWF
  | 0 => fun s s' x e => by cases e
  | n + 1 => .many1 (.alts_cons link_always (.alts_cons keyword_always (.alts_cons (decoratedOf_always (decoContentsF_always n))
      (.alts_cons (textOf_always _) .alts_nil))))

theorem decoratedText_always : Always (decoratedText env) LinkWF :=
  fun s s' x e => decoratedOf_always (decoContentsF_always s.remainingLen) s s' x e

theorem inlineElement_always : Always (inlineElement env) fun x => x.inner.WF := by
  refine .alts_cons (.alt (.located ?_) (.located ?_)) (.alts_cons (.located ?_) (.alts_cons (.located ?_) (.alts_cons (.located ?_)
    (.alts_cons (link_always.mono fun _ h => h.1) (.alts_cons (decoratedText_always.mono fun _ h => h.1)
    (.alts_cons (keyword_always.mono fun _ h => h.1) (.alts_cons ((textOf_always _).mono fun _ h => h.1) .alts_nil)))))))
  · exact .bind' fun _ => .bind' fun _ => .bind' fun _ => .pure (by simp [Inline.WF])
  · exact .bind' fun _ => .map' fun _ => by simp [Inline.WF]
  · exact .map' fun _ => by simp [Inline.WF]
  · exact .map' fun _ => by simp [Inline.WF]
  · refine .map (.mapParser (.bind' fun _ => .many1 (.any _))) fun ts hts => ?_
    simp only [Inline.WF]
    exact hts.1

theorem inlineContainer_always : Always (inlineContainer env) fun x => LineWF x.inner :=
  .located ((Always.many1 (.deeper inlineElement_always)).mono fun _ h => ⟨h.1, wfs_of_all h.2⟩)

theorem container_always : Always (P.map (inlineContainer env) (·.inner)) LineWF :=
  .map inlineContainer_always fun _ h => h

/-! ## Blocks -/

/-- A well-formed block. -/
def BlockWF (x : Located Block) : Prop := x.inner.WF

/-- A well-formed block that list items can contain. -/
def ItemWF (x : Located Block) : Prop := x.inner.WF ∧ x.inner.InItem

theorem Always.locBlock {p : P Block} (h : Always p Block.WF) : Always (Scan.located p) BlockWF := Always.located h

theorem Always.locItem {p : P Block} (h : Always p fun x => x.WF ∧ x.InItem) : Always (Scan.located p) ItemWF := Always.located h

theorem headerTail_always (n : Nat) : Always (headerTail env n) LineWF := by
  intro s s' x e
  unfold headerTail at e
  split at e
  · split at e
    next h =>
      cases e
      exact (Always.bind' fun _ => .bind' fun _ => .bind' fun _ => .bind' fun _ => .bind' fun _ => container_always) _ _ _ h
    all_goals cases e
  all_goals cases e

theorem header_always : Always (header env) BlockWF := by
  refine .locBlock (.bind' fun _ => .bind' fun _ => .bind (.verify (.any _)) fun n hn => .bind (headerTail_always n) fun c hc => .bind' fun _ => .pure ?_)
  simp only [Block.WF]
  have := hn.2
  simp at this
  exact ⟨this.1, this.2, hc⟩

theorem divider_always : Always divider BlockWF :=
  .locBlock (.bind' fun _ => .bind' fun _ => .bind' fun _ => .pure (by simp [Block.WF]))

theorem arrow_always : Always arrowBlockquote ItemWF := by
  refine .locItem (.map (.pair (.many1 (.any _)) (.any _)) fun x hx => ⟨?_, trivial⟩)
  simp only [Block.WF]
  intro h
  exact hx.1.1 (List.append_eq_nil_iff.1 h).1

theorem blockquote_always : Always blockquote BlockWF := by
  refine .alt (.locBlock (.map (.many1 (.any _)) fun x hx => ?_)) (arrow_always.mono fun _ h => h.1)
  simp only [Block.WF]
  exact hx.1

theorem codeStart_always : Always codeBlockStart fun x => DistinctKeys x.2.2 :=
  .bind' fun _ => .bind' fun _ => .bind' fun _ => .bind' fun _ => .bind' fun _ => .bind' fun _ => .bind' fun _ => .pure (collect_distinct _)

theorem code_always : Always codeBlock ItemWF := by
  refine .locItem (.bind codeStart_always fun x hx => ?_)
  obtain ⟨n, lang, md⟩ := x
  refine .bind' fun _ => .bind' fun _ => .bind' fun _ => .pure ⟨?_, trivial⟩
  simp only [Block.WF]
  exact hx

theorem math_always : Always mathBlock ItemWF := by
  refine .locItem (.bind' fun x => ?_)
  obtain ⟨n, en⟩ := x
  exact .bind' fun _ => .bind' fun _ => .bind' fun _ => .pure ⟨by simp [Block.WF], trivial⟩

theorem placeholder_always : Always (placeholder env) BlockWF :=
  .bind' fun _ => .bind (Q := BlockWF) (.locBlock (.map' fun _ => by simp [Block.WF])) fun _ hp => .bind' fun _ => .pure hp

theorem definitionLine_always : Always (definitionLine env) fun x => LineWF x.inner :=
  .located (.bind' fun _ => .bind' fun _ => .bind' fun _ => .bind (.mapParser container_always) fun _ hd => .bind' fun _ => .pure hd)

theorem termLine_always : Always (termLine env) fun x => LineWF x.1.inner ∧ ∀ d, x.2 = some d → LineWF d.inner :=
  .bind' fun _ => .bind (.located (.terminated (.mapParser container_always))) fun _ ht =>
    .bind (.opt (.located (.preceded (.mapParser container_always)))) fun _ hd => .bind' fun _ => .pure ⟨ht, hd⟩

theorem termAndDefinitions_always : Always (termAndDefinitions env) fun x =>
    LineWF x.1.inner ∧ x.2.inner ≠ [] ∧ ∀ d ∈ x.2.inner, LineWF d.inner := by
  refine .bind termLine_always fun x hx => ?_
  obtain ⟨term, def?⟩ := x
  refine .bind (.located (.verify (.many0 definitionLine_always))) fun b hb => .pure ⟨hx.1, ?_⟩
  cases def? with
  | none =>
    refine ⟨?_, hb.1⟩
    intro e
    have e : b.inner = [] := e
    have := hb.2
    rw [e] at this
    cases this
  | some d =>
    refine ⟨by simp, ?_⟩
    intro y hy
    rcases List.mem_cons.1 hy with rfl | hy
    · exact hx.2 _ rfl
    · exact hb.1 y hy

theorem defs_always : Always (definitionList env) ItemWF := by
  refine .locItem (.map (.many1 (.deeper termAndDefinitions_always)) fun xs hxs => ⟨?_, trivial⟩)
  simp only [Block.WF]
  refine ⟨by simpa using hxs.1, ?_⟩
  intro x hx
  obtain ⟨y, hy, rfl⟩ := List.mem_map.1 hx
  have := hxs.2 y hy
  exact ⟨this.1, this.2.1, this.2.2⟩

theorem cell_always : Always (cell env) fun x => x.inner.WF :=
  .located (.alts_cons (.map' fun _ => trivial) (.alts_cons (.map' fun _ => trivial) (.alts_cons (.map' fun _ => trivial)
    (.alts_cons (.map (.mapParser inlineContainer_always) fun _ h => h) .alts_nil))))

theorem row_always : Always (row env) fun r => r ≠ [] ∧ ∀ c ∈ r, c.inner.WF :=
  .terminated (.delimited (.separatedList1 (.deeper cell_always)))

theorem countOf_foldl (l : List Nat) : CountOf l (l.foldl (fun acc i => max acc (i + 1)) 0) := by
  have h : ∀ (l : List Nat) (acc : Nat), (acc ≤ l.foldl (fun acc i => max acc (i + 1)) acc) ∧
      (∀ i ∈ l, i < l.foldl (fun acc i => max acc (i + 1)) acc) ∧
      (l.foldl (fun acc i => max acc (i + 1)) acc = acc ∨ ∃ i ∈ l, i + 1 = l.foldl (fun acc i => max acc (i + 1)) acc) := by
    intro l
    induction l with
    | nil => intro acc; simp
    | cons a l ih =>
      intro acc
      obtain ⟨h1, h2, h3⟩ := ih (max acc (a + 1))
      simp only [List.foldl_cons]
      refine ⟨by omega, ?_, ?_⟩
      · intro i hi
        rcases List.mem_cons.1 hi with rfl | hi
        · omega
        · exact h2 i hi
      · rcases h3 with h3 | ⟨i, hi, h3⟩
        · rw [h3]
          by_cases hc : acc ≤ a + 1
          · right; exact ⟨a, List.mem_cons_self, by omega⟩
          · left; omega
        · right; exact ⟨i, List.mem_cons_of_mem _ hi, h3⟩
  obtain ⟨-, h2, h3⟩ := h l 0
  exact ⟨h2, h3⟩

theorem tableCollect_distinct (cells : List (CellPos × Located Cell)) : DistinctKeys (Table.collect cells) := by
  unfold Table.collect
  have : ∀ (ps m : List (CellPos × Located Cell)), DistinctKeys m →
      DistinctKeys (ps.foldl (fun m e => e :: m.filter (fun x => x.1 ≠ e.1)) m) := by
    intro ps
    induction ps with
    | nil => exact fun m h => h
    | cons p ps ih =>
      intro m h
      refine ih _ ?_
      unfold DistinctKeys
      rw [List.map_cons, List.nodup_cons]
      refine ⟨by simp, ?_⟩
      exact (List.Sublist.map _ List.filter_sublist).nodup h
  exact this cells [] List.nodup_nil

theorem mem_tableCollect {cells : List (CellPos × Located Cell)} {e : CellPos × Located Cell}
    (h : e ∈ Table.collect cells) : e ∈ cells := by
  unfold Table.collect at h
  have : ∀ (ps m : List (CellPos × Located Cell)), e ∈ ps.foldl (fun m e => e :: m.filter (fun x => x.1 ≠ e.1)) m → e ∈ ps ∨ e ∈ m := by
    intro ps
    induction ps with
    | nil => exact fun m h => .inr h
    | cons p ps ih =>
      intro m h
      rcases ih _ h with h | h
      · exact .inl (List.mem_cons_of_mem _ h)
      · rcases List.mem_cons.1 h with rfl | h
        · exact .inl List.mem_cons_self
        · exact .inr (List.mem_filter.1 h).1
  rcases this cells [] h with h | h
  · exact h
  · cases h

theorem table_new_wf {rows : List (List (Located Cell))} (hne : ∀ r ∈ rows, r ≠ [] ∧ ∀ c ∈ r, c.inner.WF) (ce : Bool)
    (h : (!(List.range (Table.new (tableCells 0 rows) ce).rowCnt).all (Table.new (tableCells 0 rows) ce).isDividerRow) = true) :
    (Table.new (tableCells 0 rows) ce).WF := by
  refine ⟨tableCollect_distinct _, ?_, ?_, ?_, ?_, ?_⟩
  · rintro ⟨p, v⟩ he
    obtain ⟨r, row, -, h2, h3⟩ := Table.mem_tableCells.1 (mem_tableCollect he)
    exact (hne row (List.mem_of_getElem? h2)).2 v (List.mem_of_getElem? h3)
  · have := countOf_foldl ((Table.new (tableCells 0 rows) ce).cells.map fun e => e.1.row)
    rw [List.foldl_map] at this
    show CountOf _ (List.foldl _ 0 (List.map _ _))
    rw [List.foldl_map]
    exact this
  · have := countOf_foldl ((Table.new (tableCells 0 rows) ce).cells.map fun e => e.1.col)
    rw [List.foldl_map] at this
    show CountOf _ (List.foldl _ 0 (List.map _ _))
    rw [List.foldl_map]
    exact this
  · simp only [Bool.not_eq_true', List.all_eq_false] at h
    obtain ⟨r, h1, h2⟩ := h
    exact ⟨r, List.mem_range.1 h1, by simpa using h2⟩
  · intro r hr
    rw [Table.rowCnt_new (fun row h => (hne row h).1)] at hr
    have hm := Table.mem_keys_tableCells (rows := rows) (p := ⟨r, 0⟩) |>.2 ⟨_, List.getElem?_eq_getElem hr, List.length_pos_iff.2 (hne _ (List.getElem_mem hr)).1⟩
    obtain ⟨⟨q, v⟩, h1, rfl⟩ := List.mem_map.1 hm
    exact ⟨v, h1⟩

theorem tableRaw_always : Always (tableRaw env) fun x => x.inner.WF := by
  refine .located ?_
  intro s s' t e
  obtain ⟨h1, h2⟩ := verify_inv e
  obtain ⟨s1, sp, -, h3⟩ := bind_inv h1
  obtain ⟨s2, first, h4, h5⟩ := bind_inv h3
  obtain ⟨s3, rows, h6, h7⟩ := bind_inv h5
  cases h7
  have hf := row_always _ _ _ h4
  have hr := (Always.many0 (.preceded row_always)) _ _ _ h6
  refine table_new_wf ?_ _ h2
  intro r hr'
  rcases List.mem_cons.1 hr' with rfl | hr'
  · exact hf
  · exact hr r hr'

theorem table_always : Always (table env) BlockWF := by
  refine .map tableRaw_always fun t h => ?_
  simp only [BlockWF, Located.map, Block.WF]
  exact h

theorem nestedTable_always : Always (nestedTable env) ItemWF := by
  refine .map tableRaw_always fun t h => ⟨?_, rfl⟩
  simp only [Located.map, Block.WF]
  exact ⟨h.distinct, h.cells, h.rows, h.cols, h.content, h.first⟩

theorem paragraphOf_always (lst : P (Located Block)) : Always (paragraphOf env lst) ItemWF := by
  refine .locItem (.map (.many1 (.delimited (Q := LineWF) (.bind' fun _ => container_always))) fun xs hxs => ⟨?_, trivial⟩)
  simp only [Block.WF]
  exact hxs

theorem blockWfs_of_all {xs : List (Located Block)} (h : ∀ x ∈ xs, x.inner.WF) : Block.WFs xs := by
  induction xs with
  | nil => simp [Block.WFs]
  | cons x xs ih =>
    obtain ⟨x, r⟩ := x
    simp only [Block.WFs]
    exact ⟨h ⟨x, r⟩ List.mem_cons_self, ih fun y hy => h y (List.mem_cons_of_mem _ hy)⟩

/-- A well-formed item. -/
def ItemOkWF (x : Located ListItem) : Prop :=
  x.inner.contents ≠ [] ∧ (∀ c ∈ x.inner.contents, c.inner.InItem) ∧ Block.WFs x.inner.contents

theorem wfItems_of_all {xs : List (Located ListItem)} (h : ∀ x ∈ xs, ItemOkWF x) : Block.WFItems xs := by
  induction xs with
  | nil => simp [Block.WFItems]
  | cons x xs ih =>
    obtain ⟨⟨ty, su, p, cs, td⟩, r⟩ := x
    simp only [Block.WFItems]
    exact ⟨h _ List.mem_cons_self, ih fun y hy => h y (List.mem_cons_of_mem _ hy)⟩

theorem listItemTail_always {p : P (Located Block)} (hp : Always p ItemWF) (n : Nat) :
    Always (listItemTailOf p n) fun x => x.2 ≠ [] ∧ ∀ c ∈ x.2, ItemWF c := by
  refine .bind' fun _ => .bind (.deeper hp) fun c hc => .bind (.many0 (.preceded (.deeper hp))) fun cs hcs => .pure ⟨by simp, ?_⟩
  intro y hy
  rcases List.mem_cons.1 hy with rfl | hy
  · exact hc
  · exact hcs y hy

theorem listItem_always {p : P (Located Block)} (hp : Always p ItemWF) : Always (listItemOf p) fun x => ItemOkWF x.2 := by
  refine .bind' fun _ => .bind' fun n => ?_
  intro s s' x e
  dsimp only at e
  split at e
  · split at e
    next h =>
      split at e
      · cases e
      · cases e
        refine (Always.located (Q := fun x => x.contents ≠ [] ∧ (∀ c ∈ x.contents, c.inner.InItem) ∧ Block.WFs x.contents)
          (.map (.pair (.any _) (listItemTail_always hp n)) ?_)) _ _ _ h
        rintro ⟨⟨ty, su⟩, td, cs⟩ ⟨-, h1, h2⟩
        exact ⟨h1, fun c hc => (h2 c hc).2, blockWfs_of_all fun c hc => (h2 c hc).1⟩
    all_goals cases e
  all_goals cases e

theorem assignPos_wf : ∀ (n : Nat) (xs : List (Located ListItem)), (∀ x ∈ xs, ItemOkWF x) → ∀ x ∈ assignPos n xs, ItemOkWF x
  | _, [], _ => by simp [assignPos]
  | n, x :: xs, h => by
    intro y hy
    rcases List.mem_cons.1 hy with rfl | hy
    · exact h x List.mem_cons_self
    · exact assignPos_wf (n + 1) xs (fun z hz => h z (List.mem_cons_of_mem _ hz)) y hy

theorem normalizeItems_wf {xs : List (Located ListItem)} (h : ∀ x ∈ xs, ItemOkWF x) : ∀ x ∈ normalizeItems xs, ItemOkWF x := by
  cases xs with
  | nil => simp [normalizeItems]
  | cons a xs =>
    intro y hy
    rcases List.mem_cons.1 hy with rfl | hy
    · exact h _ List.mem_cons_self
    · obtain ⟨z, hz, rfl⟩ := List.mem_map.1 hy
      exact h z (List.mem_cons_of_mem _ hz)

theorem listOf_always {p : P (Located Block)} (hp : Always p ItemWF) : Always (listOf p) ItemWF := by
  refine .locItem (.bind (.deeper (listItem_always hp)) fun x hx => ?_)
  obtain ⟨n, item⟩ := x
  refine .bind (.many0 (.preceded (.map (.deeper (listItem_always hp)) (R := ItemOkWF) fun _ h => h))) fun items hi => .pure ⟨?_, trivial⟩
  simp only [Block.WF]
  refine ⟨by simp [normalizeItems], wfItems_of_all (normalizeItems_wf ?_)⟩
  intro y hy
  rcases List.mem_cons.1 hy with rfl | hy
  · exact hx
  · exact assignPos_wf 1 items hi y hy

theorem nestedOf_always {p : P (Located Block)} (hp : Always p ItemWF) : Always (nestedOf env p) ItemWF :=
  .alts_cons defs_always (.alts_cons hp (.alts_cons nestedTable_always (.alts_cons code_always (.alts_cons math_always
    (.alts_cons arrow_always (.alts_cons (paragraphOf_always p) .alts_nil))))))

theorem nestedF_always : ∀ n, Always (nestedF env n) ItemWF
  | 0 => fun s s' x e => by cases e
  | n + 1 => nestedOf_always (listOf_always (nestedF_always n))

theorem list_always : Always (list env) ItemWF := fun s s' x e => listOf_always (nestedF_always s.remainingLen) s s' x e

theorem topLevel_always : Always (topLevel env) BlockWF :=
  .alts_cons header_always (.alts_cons (defs_always.mono fun _ h => h.1) (.alts_cons (list_always.mono fun _ h => h.1)
    (.alts_cons table_always (.alts_cons (code_always.mono fun _ h => h.1) (.alts_cons (math_always.mono fun _ h => h.1)
    (.alts_cons blockquote_always (.alts_cons divider_always (.alts_cons placeholder_always
    (.alts_cons ((paragraphOf_always _).mono fun _ h => h.1) .alts_nil)))))))))

theorem parsePage_wf {text : Str} {s : Span} {pg : Page} (h : parsePage env text = .ok s pg) : pg.WF := by
  refine (Always.map (Always.allConsuming (.many0 (Q := fun x => ∀ b, x = some b → BlockWF b)
    (.alt (.value (by simp)) (.map topLevel_always fun x hx b hb => by cases hb; exact hx)))) ?_) _ _ _ h
  intro es hes
  unfold Page.WF
  refine blockWfs_of_all fun x hx => ?_
  obtain ⟨y, hy, e⟩ := List.mem_filterMap.1 hx
  exact hes y hy x e

/-! ## Well-formed pages have valid maps -/

theorem Link.WF.valid {l : Link} (h : l.WF) : l.Valid := by
  cases l with
  | wiki d => exact h
  | indexed i d => exact h.2.1
  | named n d => exact h.1
  | diary dt d => exact h.1
  | raw d =>
    obtain ⟨h1, h2, -⟩ := h
    exact ⟨fun x e => by rw [h1] at e; exact absurd e (by simp), fun m e => by rw [h2] at e; exact absurd e (by simp)⟩
  | transclusion d => exact h

mutual
theorem inline_valid (x : Inline) (h : x.WF) : x.Valid := by
  match x with
  | .text _ => simp [Inline.Valid]
  | .decorated _ cs =>
    simp only [Inline.WF] at h
    simp only [Inline.Valid]
    exact inlines_valid cs h.2.2
  | .keyword _ => simp [Inline.Valid]
  | .link l =>
    simp only [Inline.WF] at h
    simp only [Inline.Valid]
    exact h.valid
  | .tags _ => simp [Inline.Valid]
  | .code _ => simp [Inline.Valid]
  | .math _ => simp [Inline.Valid]
  | .comment _ => simp [Inline.Valid]
theorem inlines_valid (xs : List (Located Inline)) (h : Inline.WFs xs) : Inline.Valids xs := by
  match xs with
  | [] => simp [Inline.Valids]
  | ⟨x, _⟩ :: xs =>
    simp only [Inline.WFs] at h
    simp only [Inline.Valids]
    exact ⟨inline_valid x h.1, inlines_valid xs h.2⟩
end

theorem Table.WF.valid {t : Table} (h : t.WF) : t.Valid := by
  refine ⟨h.distinct, ?_, h.rows, h.cols⟩
  intro e he
  have := h.cells e he
  cases hc : e.2.inner with
  | content c => rw [hc] at this; exact inlines_valid c this.2
  | span _ => trivial
  | align _ => trivial

mutual
theorem block_valid (x : Block) (h : x.WF) : x.Valid := by
  match x with
  | .blockquote _ => simp [Block.Valid]
  | .code _ m _ => simp only [Block.WF] at h; simp only [Block.Valid]; exact h
  | .defs xs =>
    simp only [Block.WF] at h
    simp only [Block.Valid]
    intro x hx
    have := h.2 x hx
    exact ⟨inlines_valid _ this.term.2, fun d hd => inlines_valid _ (this.defs d hd).2⟩
  | .divider => simp [Block.Valid]
  | .header c _ _ => simp only [Block.WF] at h; simp only [Block.Valid]; exact inlines_valid c h.2.2.2
  | .list xs => simp only [Block.WF] at h; simp only [Block.Valid]; exact items_valid xs h.2
  | .math _ _ => simp [Block.Valid]
  | .paragraph rs =>
    simp only [Block.WF] at h
    simp only [Block.Valid]
    exact fun r hr => inlines_valid r (h.2 r hr).2
  | .placeholder _ => simp [Block.Valid]
  | .table t => simp only [Block.WF] at h; simp only [Block.Valid]; exact h.valid
theorem items_valid (xs : List (Located (ItemF Block))) (h : Block.WFItems xs) : Block.ValidItems xs := by
  match xs with
  | [] => simp [Block.ValidItems]
  | ⟨⟨_, _, _, cs, _⟩, _⟩ :: xs =>
    simp only [Block.WFItems] at h
    simp only [Block.ValidItems]
    exact ⟨blocks_valid cs h.1.2.2, items_valid xs h.2⟩
theorem blocks_valid (xs : List (Located Block)) (h : Block.WFs xs) : Block.Valids xs := by
  match xs with
  | [] => simp [Block.Valids]
  | ⟨x, _⟩ :: xs =>
    simp only [Block.WFs] at h
    simp only [Block.Valids]
    exact ⟨block_valid x h.1, blocks_valid xs h.2⟩
end

theorem Page.WF.valid {p : Page} (h : p.WF) : p.Valid := blocks_valid p.elements h

end Vw
