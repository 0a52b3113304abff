import Verif.Model.Text
import Verif.Spec.Elements

/-!
# Lemmas about anchors, percent encoding, numbers and trimming
-/

namespace Vw

/-! ## Splitting and joining -/

theorem splitOn_ne_nil (sep : Byte) (s : Str) : splitOn sep s ≠ [] := by
  cases s with
  | nil => simp [splitOn]
  | cons b bs =>
    simp only [splitOn]
    split
    · simp
    · split <;> simp

theorem splitOn_clean {sep : Byte} {p : Str} (hp : sep ∉ p) : splitOn sep p = [p] := by
  induction p with
  | nil => rfl
  | cons b bs ih =>
    simp only [splitOn]
    rw [if_neg (by rintro rfl; exact hp (by simp)), ih (by simp at hp; exact hp.2)]

theorem splitOn_sep {sep : Byte} {p : Str} (hp : sep ∉ p) (r : Str) :
    splitOn sep (p ++ sep :: r) = p :: splitOn sep r := by
  induction p with
  | nil => simp [splitOn]
  | cons b bs ih =>
    simp only [List.cons_append, splitOn]
    rw [if_neg (by rintro rfl; exact hp (by simp)), ih (by simp at hp; exact hp.2)]

theorem splitOn_join {sep : Byte} {ps : List Str} (hn : ps ≠ []) (hp : ∀ p ∈ ps, sep ∉ p) :
    splitOn sep (joinWith [sep] ps) = ps := by
  induction ps with
  | nil => exact absurd rfl hn
  | cons p ps ih =>
    cases ps with
    | nil => exact splitOn_clean (hp p (by simp))
    | cons q ps =>
      simp only [joinWith, List.append_assoc, List.singleton_append]
      rw [splitOn_sep (hp p (by simp)), ih (by simp) (fun p h => hp p (by simp [h]))]

theorem join_splitOn (sep : Byte) (s : Str) : joinWith [sep] (splitOn sep s) = s := by
  induction s with
  | nil => rfl
  | cons b bs ih =>
    simp only [splitOn]
    split
    · next h =>
      subst h
      obtain ⟨p, ps, h⟩ := List.exists_cons_of_ne_nil (splitOn_ne_nil b bs)
      rw [h] at ih ⊢
      simp [joinWith, ih]
    · obtain ⟨p, ps, h⟩ := List.exists_cons_of_ne_nil (splitOn_ne_nil sep bs)
      rw [h] at ih ⊢
      cases ps with
      | nil => simpa [joinWith] using ih
      | cons => simpa [joinWith] using ih

theorem splitOn_parts (sep : Byte) (s : Str) : ∀ p ∈ splitOn sep s, sep ∉ p := by
  induction s with
  | nil => simp [splitOn]
  | cons b bs ih =>
    simp only [splitOn]
    split
    · simpa using ih
    · next hb =>
      obtain ⟨p, ps, h⟩ := List.exists_cons_of_ne_nil (splitOn_ne_nil sep bs)
      rw [h] at ih ⊢
      intro q hq
      simp only [List.mem_cons] at hq
      rcases hq with rfl | hq
      · have := ih p (by simp)
        simp only [List.mem_cons, not_or]
        exact ⟨fun e => hb e.symm, this⟩
      · exact ih q (by simp [hq])

/-- Adding a byte to the first part. -/
def consHead (a : Byte) : List Str → List Str
  | [] => [[a]]
  | p :: ps => (a :: p) :: ps

theorem splitOn3_step {x y z a : Byte} {r : Str} (h : ¬ ∃ t, a :: r = x :: y :: z :: t) :
    splitOn3 x y z (a :: r) = consHead a (splitOn3 x y z r) := by
  match r with
  | [] => rfl
  | [b] => rfl
  | b :: c :: rest =>
    rw [splitOn3, if_neg (by rintro ⟨rfl, rfl, rfl⟩; exact h ⟨rest, rfl⟩)]
    cases splitOn3 x y z (b :: c :: rest) <;> rfl

theorem splitOn3_sep {p : Str} (hp : ¬ b!"%23" <:+: p) (r : Str) :
    splitOn3 c!"%" c!"2" c!"3" (p ++ (b!"%23" ++ r)) = p :: splitOn3 c!"%" c!"2" c!"3" r := by
  induction p with
  | nil => simp [splitOn3]
  | cons a p ih =>
    rw [List.cons_append, splitOn3_step, ih]
    · rfl
    · intro h; exact hp (h.trans (List.suffix_cons a p).isInfix)
    · rintro ⟨t, h⟩
      match p with
      | [] => simp at h
      | [b] => simp at h
      | b :: c :: p =>
        simp at h
        obtain ⟨rfl, rfl, rfl, -⟩ := h
        exact hp ⟨[], p, rfl⟩

theorem splitOn3_clean {p : Str} (hp : ¬ b!"%23" <:+: p) : splitOn3 c!"%" c!"2" c!"3" p = [p] := by
  induction p with
  | nil => rfl
  | cons a p ih =>
    rw [splitOn3_step, ih]
    · rfl
    · intro h; exact hp (h.trans (List.suffix_cons a p).isInfix)
    · rintro ⟨t, h⟩; rw [h] at hp; exact hp ⟨[], t, rfl⟩

theorem splitOn3_join {ps : List Str} (hn : ps ≠ []) (hp : ∀ p ∈ ps, ¬ b!"%23" <:+: p) :
    splitOn3 c!"%" c!"2" c!"3" (joinWith b!"%23" ps) = ps := by
  induction ps with
  | nil => exact absurd rfl hn
  | cons p ps ih =>
    cases ps with
    | nil => exact splitOn3_clean (hp p (by simp))
    | cons q ps =>
      simp only [joinWith, List.append_assoc]
      rw [splitOn3_sep (hp p (by simp)), ih (by simp) (fun p h => hp p (by simp [h]))]

theorem consHead_join (sep : Str) (a : Byte) {ps : List Str} (h : ps ≠ []) :
    joinWith sep (consHead a ps) = a :: joinWith sep ps := by
  match ps, h with
  | [p], _ => rfl
  | p :: q :: ps, _ => rfl

theorem splitOn3_join_inv (s : Str) :
    splitOn3 c!"%" c!"2" c!"3" s ≠ [] ∧ joinWith b!"%23" (splitOn3 c!"%" c!"2" c!"3" s) = s := by
  induction h : s.length using Nat.strongRecOn generalizing s with
  | ind n ih =>
    subst h
    match s with
    | [] => simp [splitOn3, joinWith]
    | a :: r =>
      by_cases h : ∃ t, a :: r = c!"%" :: c!"2" :: c!"3" :: t
      · obtain ⟨t, h⟩ := h
        rw [h]
        have := ih t.length (by rw [h]; simp; omega) t rfl
        rw [splitOn3, if_pos ⟨rfl, rfl, rfl⟩]
        obtain ⟨p, ps, hp⟩ := List.exists_cons_of_ne_nil this.1
        rw [hp] at this ⊢
        simp [joinWith, this.2]
      · rw [splitOn3_step h]
        have := ih r.length (by simp) r rfl
        refine ⟨?_, by rw [consHead_join _ _ this.1, this.2]⟩
        cases splitOn3 c!"%" c!"2" c!"3" r <;> simp [consHead]

/-! ## Percent encoding -/

theorem hexVal_hexDigit (n : Nat) (h : n < 16) : hexVal (hexDigit n) = some n := by
  have : ∀ n < 16, hexVal (hexDigit n) = some n := by decide
  exact this n h

theorem hexDigit_plain (n : Nat) (h : n < 16) : mustEncode (hexDigit n) = false ∧ hexDigit n ≠ 37 := by
  have : ∀ n < 16, mustEncode (hexDigit n) = false ∧ hexDigit n ≠ 37 := by decide
  exact this n h

theorem percentEncode_plain (s : Str) : ∀ b ∈ percentEncode s, mustEncode b = false := by
  induction s with
  | nil => simp [percentEncode]
  | cons a s ih =>
    intro b hb
    simp only [percentEncode, List.mem_append] at hb
    rcases hb with hb | hb
    · split at hb
      · simp only [percentByte, List.mem_cons, List.not_mem_nil, or_false] at hb
        rcases hb with rfl | rfl | rfl
        · rfl
        · exact (hexDigit_plain _ (by omega)).1
        · exact (hexDigit_plain _ (by omega)).1
      · next h =>
        simp at hb; subst hb; simpa using h
    · exact ih b hb

theorem replaceFirst_mem (pat to s : Str) : ∀ b ∈ replaceFirst pat to s, b ∈ to ∨ b ∈ s := by
  induction s with
  | nil => simp [replaceFirst]
  | cons a s ih =>
    intro b hb
    simp only [replaceFirst] at hb
    split at hb
    · rcases List.mem_append.1 hb with hb | hb
      · exact .inl hb
      · exact .inr (List.mem_of_mem_drop hb)
    · rcases List.mem_cons.1 hb with rfl | hb
      · exact .inr (by simp)
      · rcases ih b hb with h | h
        · exact .inl h
        · exact .inr (by simp [h])

theorem replaceFirst_count {pat to s : Str} {c : Byte} (h : c ∉ s) :
    (replaceFirst pat to s).count c ≤ to.count c := by
  induction s with
  | nil => simp [replaceFirst]
  | cons a s ih =>
    simp only [replaceFirst]
    split
    · rw [List.count_append, List.count_eq_zero.2 (fun hc => h (List.mem_of_mem_drop hc))]
      omega
    · rw [List.count_cons, if_neg (by simp; rintro rfl; exact h (by simp))]
      exact ih (by simp at h; exact h.2)

theorem percentDecode_plain {a : Byte} (h : a ≠ 37) (r : Str) :
    percentDecode (a :: r) = a :: percentDecode r := by
  match r with
  | [] => rfl
  | [b] => rfl
  | b :: c :: rest => rw [percentDecode, if_neg h]

theorem percentDecode_byte (b : Byte) (h : b < 256) (r : Str) :
    percentDecode (percentByte b ++ r) = b :: percentDecode r := by
  simp only [percentByte, List.cons_append, List.nil_append]
  rw [percentDecode, if_pos rfl, hexVal_hexDigit _ (by omega), hexVal_hexDigit _ (by omega)]
  simp only
  congr 1
  omega

theorem percentDecode_encode {s : Str} (h : ∀ b ∈ s, b < 256) (hp : 37 ∉ s) :
    percentDecode (percentEncode s) = s := by
  induction s with
  | nil => rfl
  | cons a s ih =>
    have ih := ih (fun b hb => h b (by simp [hb])) (by simp at hp; exact hp.2)
    simp only [percentEncode]
    split
    · rw [percentDecode_byte _ (h a (by simp)), ih]
    · rw [List.singleton_append, percentDecode_plain (by rintro rfl; exact hp (by simp)), ih]

theorem replaceFirst_skip {a : Byte} (h : a ≠ 37) (to r : Str) :
    replaceFirst b!"%23" to (a :: r) = a :: replaceFirst b!"%23" to r := by
  rw [replaceFirst, if_neg]
  simp [List.isPrefixOf]
  intro h'; exact absurd h'.symm h

theorem percentByte_23 (b : Byte) (h : b < 256) (hb : b ≠ 35) (r : Str) :
    replaceFirst b!"%23" b!"#" (percentByte b ++ r) = percentByte b ++ replaceFirst b!"%23" b!"#" r := by
  simp only [percentByte, List.cons_append, List.nil_append]
  have key : ∀ b < 256, b ≠ 35 → ¬ (hexDigit (b / 16 % 16) = 50 ∧ hexDigit (b % 16) = 51) := by decide +kernel
  have h1 := key b h hb
  rw [replaceFirst, if_neg]
  · rw [replaceFirst_skip (hexDigit_plain _ (by omega)).2, replaceFirst_skip (hexDigit_plain _ (by omega)).2]
  · simp [List.isPrefixOf]
    intro e1 e2
    exact h1 ⟨e1.symm, e2.symm⟩

theorem encodeUri_decode {s : Str} (h : ∀ b ∈ s, b < 256) (hp : 37 ∉ s) :
    percentDecode (encodeUri s) = s := by
  unfold encodeUri
  induction s with
  | nil => rfl
  | cons a s ih =>
    have hs : ∀ b ∈ s, b < 256 := fun b hb => h b (by simp [hb])
    have hps : 37 ∉ s := by simp at hp; exact hp.2
    have ha : a ≠ 37 := by rintro rfl; exact hp (by simp)
    have ih := ih hs hps
    simp only [percentEncode]
    split
    · by_cases h35 : a = 35
      · subst h35
        show percentDecode (replaceFirst b!"%23" b!"#" (37 :: 50 :: 51 :: percentEncode s)) = _
        rw [replaceFirst, if_pos (by simp [List.isPrefixOf])]
        show percentDecode (35 :: percentEncode s) = _
        rw [percentDecode_plain (by decide), percentDecode_encode hs hps]
      · rw [percentByte_23 _ (h a (by simp)) h35, percentDecode_byte _ (h a (by simp)), ih]
    · rw [List.singleton_append, replaceFirst_skip ha, percentDecode_plain ha, ih]

theorem uriPlain_iff (b : Byte) : UriPlain b ↔ mustEncode b = false := by
  simp [UriPlain, mustEncode]
  omega

theorem percentEncode_encoded {s : Str} (h : ∀ b ∈ s, b < 256) : PercentEncoded s (percentEncode s) := by
  induction s with
  | nil => exact .nil
  | cons b s ih =>
    have ih := ih fun x hx => h x (by simp [hx])
    have hb := h b (by simp)
    have key : ∀ n < 16, b!"0123456789ABCDEF"[n]? = some (hexDigit n) := by decide
    simp only [percentEncode]
    split
    · next hm =>
      refine .escape (by rw [uriPlain_iff, hm]; simp) ?_ (key _ (by omega)) ih
      rw [Nat.mod_eq_of_lt (by omega)]
      exact key _ (by omega)
    · next hm => exact .plain ((uriPlain_iff b).2 (by simpa using hm)) ih

theorem replaceFirst_spec (pat to : Str) (hp : pat ≠ []) : ∀ s : Str,
    (¬ pat <:+: s ∧ replaceFirst pat to s = s) ∨
    ∃ a r, s = a ++ pat ++ r ∧ (∀ a' r', s = a' ++ pat ++ r' → a.length ≤ a'.length) ∧
      replaceFirst pat to s = a ++ to ++ r
  | [] => .inl ⟨by simpa using hp, rfl⟩
  | b :: s => by
    simp only [replaceFirst]
    split
    · next h =>
      rw [List.isPrefixOf_iff_prefix] at h
      obtain ⟨r, hr⟩ := h
      refine .inr ⟨[], r, by simp [hr], by simp, ?_⟩
      rw [← hr]; simp
    · next h =>
      have h : ¬ pat <+: b :: s := by simpa [List.isPrefixOf_iff_prefix] using h
      rcases replaceFirst_spec pat to hp s with ⟨h1, h2⟩ | ⟨a, r, h1, h2, h3⟩
      · refine .inl ⟨?_, by rw [h2]⟩
        rw [List.infix_cons_iff]
        rintro (h' | h')
        · exact h h'
        · exact h1 h'
      · refine .inr ⟨b :: a, r, by simp [h1], ?_, by rw [h3]; simp⟩
        intro a' r' he
        cases a' with
        | nil => exact absurd ⟨r', by simpa using he.symm⟩ h
        | cons c a' =>
          have := h2 a' r' (by simpa using (List.cons.inj he).2)
          simpa using this

theorem hexVal_digit {b : Byte} {v : Nat} : hexVal b = some v ↔ HexDigit b v := by
  unfold hexVal HexDigit
  have key : ∀ v < 16, b!"0123456789ABCDEF"[v]? = some (if v < 10 then 48 + v else 55 + v) ∧
      b!"0123456789abcdef"[v]? = some (if v < 10 then 48 + v else 87 + v) := by decide
  by_cases hv : v < 16
  · rw [(key v hv).1, (key v hv).2]
    simp only [Option.some.injEq]
    repeat' split
    all_goals simp
    all_goals omega
  · have h1 : b!"0123456789ABCDEF"[v]? = none := List.getElem?_eq_none (by simpa using hv)
    have h2 : b!"0123456789abcdef"[v]? = none := List.getElem?_eq_none (by simpa using hv)
    rw [h1, h2]
    repeat' split
    all_goals simp
    all_goals omega

theorem percentDecode_decoded (s : Str) : PercentDecoded s (percentDecode s) := by
  fun_induction percentDecode s with
  | case1 => exact .nil
  | case2 a => exact .other (by rintro ⟨_, _, _, _, _, _, h, _⟩; cases h) .nil
  | case3 a b =>
    refine .other (by rintro ⟨_, _, _, _, _, _, h, _⟩; cases h) (.other ?_ .nil)
    rintro ⟨_, _, _, _, _, _, h, _⟩; cases h
  | case4 b c rest h l h2 h1 ih =>
    rw [Nat.mul_comm h]
    exact .escape (hexVal_digit.1 h1) (hexVal_digit.1 h2) ih
  | case5 b c rest hn ih =>
    refine .other ?_ ih
    rintro ⟨_, x, _, y, _, _, h, h1, h2⟩
    cases h
    exact hn x y (hexVal_digit.2 h1) (hexVal_digit.2 h2)
  | case6 a b c rest hn ih => exact .other (fun ⟨_, _, _, _, _, h, _⟩ => hn h) ih

theorem PercentDecoded.unique {s t u : Str} (h : PercentDecoded s t) (h' : PercentDecoded s u) : t = u := by
  induction h generalizing u with
  | nil => cases h'; rfl
  | escape h1 h2 _ ih =>
    cases h' with
    | escape h3 h4 hs =>
      have e1 := (hexVal_digit.2 h1).symm.trans (hexVal_digit.2 h3)
      have e2 := (hexVal_digit.2 h2).symm.trans (hexVal_digit.2 h4)
      cases e1; cases e2
      rw [ih hs]
    | other h _ => exact absurd ⟨_, _, _, _, _, rfl, rfl, h1, h2⟩ h
  | other h _ ih =>
    cases h' with
    | escape h3 h4 hs => exact absurd ⟨_, _, _, _, _, rfl, rfl, h3, h4⟩ h
    | other _ hs => rw [ih hs]

/-! ## Decimal numbers -/

theorem decStr_digits (n : Nat) : ∀ b ∈ decStr n, 48 ≤ b ∧ b ≤ 57 := by
  induction n using Nat.strongRecOn with
  | ind n ih =>
    rw [decStr]
    split
    · intro b hb; simp at hb; omega
    · intro b hb
      rcases List.mem_append.1 hb with hb | hb
      · exact ih _ (by omega) b hb
      · simp at hb; omega

theorem decStr_value (n : Nat) : decValue (decStr n) = n := by
  induction n using Nat.strongRecOn with
  | ind n ih =>
    rw [decStr]
    split
    · simp [decValue]
    · unfold decValue at *
      rw [List.foldl_append, ih _ (by omega)]
      simp; omega

theorem decStr_ne_nil (n : Nat) : decStr n ≠ [] := by
  rw [decStr]; split <;> simp

theorem isDigit_iff (b : Byte) : isDigit b = true ↔ 48 ≤ b ∧ b ≤ 57 := by simp [isDigit]

theorem readDigits_iff (acc : Nat) (s : Str) (n : Nat) :
    readDigits acc s = some n ↔ (∀ b ∈ s, 48 ≤ b ∧ b ≤ 57) ∧ s.foldl (fun v b => v * 10 + (b - 48)) acc = n := by
  induction s generalizing acc with
  | nil => simp [readDigits]
  | cons b s ih =>
    simp only [readDigits]
    split
    · next h =>
      rw [isDigit_iff] at h
      rw [ih]; simp [h]
    · next h =>
      rw [isDigit_iff] at h
      simp [h]

theorem usizeOfDigits_iff (ds : Str) (n : Nat) : usizeOfDigits ds = some n ↔
    ds ≠ [] ∧ (∀ b ∈ ds, 48 ≤ b ∧ b ≤ 57) ∧ decValue ds = n ∧ n < 2 ^ 64 := by
  unfold usizeOfDigits
  by_cases hd : ds = []
  · simp [hd]
  · rw [if_neg hd, Option.bind_eq_some_iff]
    constructor
    · rintro ⟨m, hm, h⟩
      rw [readDigits_iff] at hm
      split at h
      · obtain rfl := Option.some.inj h
        exact ⟨hd, hm.1, hm.2, by assumption⟩
      · cases h
    · rintro ⟨-, h1, h2, h3⟩
      exact ⟨n, (readDigits_iff _ _ _).2 ⟨h1, h2⟩, if_pos h3⟩

theorem parseUsize_iff (s : Str) (n : Nat) :
    parseUsize s = some n ↔ ∃ sg ds, s = sg ++ ds ∧ (sg = [] ∨ sg = b!"+") ∧ ds ≠ [] ∧
      (∀ b ∈ ds, 48 ≤ b ∧ b ≤ 57) ∧ decValue ds = n ∧ n < 2 ^ 64 := by
  unfold parseUsize
  rw [usizeOfDigits_iff]
  by_cases hs : ∃ r, s = 43 :: r
  · obtain ⟨r, rfl⟩ := hs
    constructor
    · rintro ⟨h1, h2⟩; exact ⟨[43], r, rfl, .inr rfl, h1, h2⟩
    · rintro ⟨sg, ds, h1, rfl | rfl, h2, h3, h4⟩
      · exfalso
        simp only [List.nil_append] at h1
        have := h3 43 (by rw [← h1]; simp)
        omega
      · simp at h1; subst h1; exact ⟨h2, h3, h4⟩
  · have : stripPlus s = s := by
      unfold stripPlus
      split
      · next r => exact absurd ⟨r, rfl⟩ hs
      · rfl
    rw [this]
    constructor
    · rintro ⟨h1, h2⟩; exact ⟨[], s, rfl, .inl rfl, h1, h2⟩
    · rintro ⟨sg, ds, rfl, rfl | rfl, h2, h3, h4⟩
      · exact ⟨h2, h3, h4⟩
      · exact absurd ⟨ds, rfl⟩ hs

/-! ## Trimming -/

theorem WsText.nil : WsText [] := ⟨[], by simp, rfl⟩

theorem WsText.cons {c s : Str} (hc : c ∈ wsChars) (hs : WsText s) : WsText (c ++ s) := by
  obtain ⟨cs, h1, rfl⟩ := hs
  exact ⟨c :: cs, by simpa using ⟨hc, h1⟩, rfl⟩

theorem WsText.append {a b : Str} (ha : WsText a) (hb : WsText b) : WsText (a ++ b) := by
  obtain ⟨cs, h1, rfl⟩ := ha
  obtain ⟨ds, h2, rfl⟩ := hb
  exact ⟨cs ++ ds, by intro c hc; rcases List.mem_append.1 hc with h | h; exact h1 c h; exact h2 c h,
    by simp⟩

/-- Whitespace bytes are not printable ASCII. -/
theorem WsText.bytes {s : Str} (h : WsText s) : ∀ b ∈ s, b ≤ 32 ∨ 128 ≤ b := by
  obtain ⟨cs, h1, rfl⟩ := h
  have key : ∀ c ∈ wsChars, ∀ b ∈ c, b ≤ 32 ∨ 128 ≤ b := by decide
  intro b hb
  obtain ⟨c, hc, hb⟩ := List.mem_flatten.1 hb
  exact key c (h1 c hc) b hb

theorem wsCharLen_char {c : Str} (h : c ∈ wsChars) (r : Str) : wsCharLen (c ++ r) = c.length := by
  simp only [wsChars, List.mem_cons, List.not_mem_nil, or_false] at h
  rcases h with h | h | h | h | h | h | h | h | h | h | h | h | h | h | h | h | h | h | h | h | h | h | h | h | h <;>
    subst h <;> rfl

theorem wsCharLen_inv (s : Str) (h : wsCharLen s ≠ 0) : ∃ c r, c ∈ wsChars ∧ s = c ++ r ∧ wsCharLen s = c.length := by
  unfold wsCharLen at h ⊢
  split at h
  · exact ⟨[0xC2, 0x85], _, by decide, rfl, rfl⟩
  · exact ⟨[0xC2, 0xA0], _, by decide, rfl, rfl⟩
  · exact ⟨[0xE1, 0x9A, 0x80], _, by decide, rfl, rfl⟩
  · next c r =>
    split at h
    · next hc =>
      refine ⟨[0xE2, 0x80, c], r, ?_, rfl, by simp [hc]⟩
      have : ∀ c < 256, ((0x80 ≤ c ∧ c ≤ 0x8A) ∨ c = 0xA8 ∨ c = 0xA9 ∨ c = 0xAF) →
          [0xE2, 0x80, c] ∈ wsChars := by decide +kernel
      exact this c (by omega) hc
    · exact absurd rfl h
  · exact ⟨[0xE2, 0x81, 0x9F], _, by decide, rfl, rfl⟩
  · exact ⟨[0xE3, 0x80, 0x80], _, by decide, rfl, rfl⟩
  · next b r _ _ _ _ _ _ =>
    split at h
    · next hb =>
      refine ⟨[b], r, ?_, rfl, by simp [hb]⟩
      have : ∀ b < 256, ((9 ≤ b ∧ b ≤ 13) ∨ b = 32) → [b] ∈ wsChars := by decide +kernel
      exact this b (by omega) hb
    · exact absurd rfl h
  · exact absurd rfl h

theorem wsChars_len {c : Str} (h : c ∈ wsChars) : 0 < c.length := by
  have : ∀ c ∈ wsChars, 0 < c.length := by decide
  exact this c h

theorem leadingWsF_spec (n : Nat) (s : Str) :
    ∃ w r, s = w ++ r ∧ WsText w ∧ leadingWsF n s = w.length ∧ (s.length ≤ n → wsCharLen r = 0) := by
  induction n generalizing s with
  | zero => exact ⟨[], s, rfl, .nil, rfl, by intro h; simp at h; subst h; rfl⟩
  | succ n ih =>
    simp only [leadingWsF]
    by_cases h : wsCharLen s = 0
    · rw [if_pos h]; exact ⟨[], s, rfl, .nil, rfl, fun _ => h⟩
    · rw [if_neg h]
      obtain ⟨c, r, hc, rfl, hl⟩ := wsCharLen_inv s h
      obtain ⟨w, r', h1, h2, h3, h4⟩ := ih r
      rw [hl]
      simp only [List.drop_left]
      have := wsChars_len hc
      exact ⟨c ++ w, r', by simp [h1], h2.cons hc, by rw [h3]; simp, by
        intro hs; apply h4; simp at hs; omega⟩

theorem leadingWs_run {w r : Str} (hw : WsText w) (hr : wsCharLen r = 0) : leadingWs (w ++ r) = w.length := by
  obtain ⟨cs, h1, rfl⟩ := hw
  have : ∀ n, cs.flatten.length ≤ n → leadingWsF n (cs.flatten ++ r) = cs.flatten.length := by
    induction cs with
    | nil =>
      intro n _
      cases n with
      | zero => rfl
      | succ n => simp [leadingWsF, hr]
    | cons c cs ih =>
      intro n hn
      have hc := h1 c (by simp)
      have hl := wsChars_len hc
      simp only [List.flatten_cons, List.length_append] at hn
      cases n with
      | zero => omega
      | succ n =>
        simp only [leadingWsF, List.flatten_cons, List.append_assoc]
        rw [wsCharLen_char hc, if_neg (by omega)]
        simp only [List.drop_left]
        rw [ih (fun c h => h1 c (by simp [h])) n (by omega)]
        simp
  exact this _ (by simp)

theorem trimStart_spec (s : Str) : ∃ w, WsText w ∧ s = w ++ trimStart s ∧ wsCharLen (trimStart s) = 0 := by
  obtain ⟨w, r, h1, h2, h3, h4⟩ := leadingWsF_spec s.length s
  have e : trimStart s = r := by
    unfold trimStart leadingWs
    rw [h3, h1]; simp
  rw [e]
  exact ⟨w, h2, h1, h4 (Nat.le_refl _)⟩

theorem leadingWs_all {s : Str} : leadingWs s = s.length ↔ WsText s := by
  constructor
  · intro h
    obtain ⟨w, r, h1, h2, h3, -⟩ := leadingWsF_spec s.length s
    unfold leadingWs at h
    have : r = [] := by
      have := congrArg List.length h1
      simp at this
      apply List.length_eq_zero_iff.1; omega
    rw [h1, this, List.append_nil]; exact h2
  · intro h
    have := leadingWs_run h (r := []) rfl
    simpa using this

theorem trimEnd_spec (s : Str) : ∃ w, WsText w ∧ s = trimEnd s ++ w := by
  induction s with
  | nil => exact ⟨[], .nil, rfl⟩
  | cons b bs ih =>
    simp only [trimEnd]
    split
    · next h => exact ⟨b :: bs, leadingWs_all.1 h, rfl⟩
    · obtain ⟨w, h1, h2⟩ := ih
      exact ⟨w, h1, by simp [← h2]⟩

/-- Trimming stops at a printable ASCII byte. -/
theorem trimEnd_run {p w : Str} {c : Byte} (hc : 32 < c ∧ c < 128) (hw : WsText w) :
    trimEnd (p ++ c :: w) = p ++ [c] := by
  have notWs : ∀ q : Str, ¬ leadingWs (q ++ c :: w) = (q ++ c :: w).length := by
    intro q h
    have := (leadingWs_all.1 h).bytes c (by simp)
    omega
  induction p with
  | nil =>
    rw [List.nil_append, trimEnd, if_neg (by simpa using notWs [])]
    cases w with
    | nil => rfl
    | cons a w => rw [trimEnd, if_pos (leadingWs_all.2 hw)]; rfl
  | cons a p ih =>
    rw [List.cons_append, trimEnd, if_neg (by simpa using notWs (a :: p)), ih]; rfl

theorem wsCharLen_printable {b : Byte} {r : Str} (h : 32 < b ∧ b < 128) : wsCharLen (b :: r) = 0 := by
  apply Classical.byContradiction
  intro hn
  obtain ⟨c, r', hc, he, -⟩ := wsCharLen_inv _ hn
  have hl := wsChars_len hc
  match c, hl, he, hc with
  | x :: c, _, he, hc =>
    simp at he
    have := (WsText.cons hc .nil).bytes x (by simp)
    omega

theorem trimText_run {u w : Str} {p : Str} (hu : WsText u) (hw : WsText w) (hp : p ≠ [])
    (hb : ∀ b ∈ p, 32 < b ∧ b < 128) : trim (u ++ p ++ w) = p := by
  unfold trim trimStart
  have h1 : wsCharLen (p ++ w) = 0 := by
    match p, hp with
    | a :: p, _ => exact wsCharLen_printable (hb a (by simp))
  rw [List.append_assoc, leadingWs_run hu h1]
  simp only [List.drop_left]
  obtain ⟨q, x, rfl⟩ : ∃ q x, p = q ++ [x] :=
    ⟨p.dropLast, p.getLast hp, (List.dropLast_concat_getLast hp).symm⟩
  rw [List.append_assoc, List.singleton_append, trimEnd_run (hb x (by simp)) hw]

theorem trim_spec (s : Str) : ∃ u w, WsText u ∧ WsText w ∧ s = u ++ trim s ++ w := by
  obtain ⟨u, h1, h2, -⟩ := trimStart_spec s
  obtain ⟨w, h3, h4⟩ := trimEnd_spec (trimStart s)
  exact ⟨u, w, h1, h3, by rw [List.append_assoc]; unfold trim; rw [← h4, ← h2]⟩

theorem parse_trim_iff (s : Str) (n : Nat) : parseUsize (trim s) = some n ↔ NumText s n := by
  rw [parseUsize_iff]
  constructor
  · rintro ⟨sg, ds, h1, h2⟩
    obtain ⟨u, w, hu, hw, hs⟩ := trim_spec s
    exact ⟨u, sg, ds, w, by rw [hs, h1]; simp, hu, hw, h2⟩
  · rintro ⟨u, sg, ds, w, rfl, hu, hw, h1, h2, h3, h4⟩
    refine ⟨sg, ds, ?_, h1, h2, h3, h4⟩
    rw [show u ++ sg ++ ds ++ w = u ++ (sg ++ ds) ++ w by simp]
    apply trimText_run hu hw (by simp [h2])
    intro b hb
    rcases List.mem_append.1 hb with hb | hb
    · rcases h1 with rfl | rfl
      · simp at hb
      · simp at hb; omega
    · have := h3 b hb; omega

theorem NumText.noComma {s : Str} {n : Nat} (h : NumText s n) : 44 ∉ s := by
  obtain ⟨u, sg, ds, w, rfl, hu, hw, h1, -, h3, -⟩ := h
  simp only [List.mem_append, not_or]
  refine ⟨⟨⟨?_, ?_⟩, ?_⟩, ?_⟩
  · intro hb; have := hu.bytes _ hb; omega
  · rcases h1 with rfl | rfl <;> simp
  · intro hb; have := h3 _ hb; omega
  · intro hb; have := hw.bytes _ hb; omega

theorem cellPos_parse_iff (s : Str) (p : CellPos) :
    CellPos.parse s = some p ↔ ∃ r c, s = r ++ b!"," ++ c ∧ NumText r p.row ∧ NumText c p.col := by
  unfold CellPos.parse
  constructor
  · intro h
    split at h
    · next r c hs =>
      obtain ⟨row, hr, h⟩ := Option.bind_eq_some_iff.1 h
      obtain ⟨col, hc, h⟩ := Option.bind_eq_some_iff.1 h
      obtain rfl := Option.some.inj h
      refine ⟨r, c, ?_, (parse_trim_iff _ _).1 hr, (parse_trim_iff _ _).1 hc⟩
      rw [← join_splitOn c!"," s, hs]
      simp [joinWith]
    · cases h
  · rintro ⟨r, c, rfl, hr, hc⟩
    rw [List.append_assoc, List.singleton_append, splitOn_sep hr.noComma, splitOn_clean hc.noComma]
    simp only
    rw [(parse_trim_iff _ _).2 hr, (parse_trim_iff _ _).2 hc]
    rfl

theorem decStr_num (n : Nat) (h : n < 2 ^ 64) : NumText (decStr n) n :=
  ⟨[], [], decStr n, [], by simp, .nil, .nil, .inl rfl, decStr_ne_nil n, decStr_digits n, decStr_value n, h⟩

end Vw
