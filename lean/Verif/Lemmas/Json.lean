import Verif.Spec.Json
import Verif.Lemmas.Uri

/-!
# Lemmas about JSON as text
-/

namespace Vw
namespace Json

/-! ## Reading what was written -/

theorem unhexLower : ∀ n < 16, hexOf (hexLower n) = some n := by decide

theorem readStr_esc_low : ∀ b < 128, ∀ r, readStr (escByte b ++ r) = (readStr r).map fun p => (b :: p.1, p.2) := by
  intro b hb r
  by_cases h1 : b = 34
  · subst h1; simp [escByte, readStr, unescape]
  by_cases h2 : b = 92
  · subst h2; simp [escByte, readStr, unescape]
  by_cases h3 : b = 8
  · subst h3; simp [escByte, readStr, unescape]
  by_cases h4 : b = 9
  · subst h4; simp [escByte, readStr, unescape]
  by_cases h5 : b = 10
  · subst h5; simp [escByte, readStr, unescape]
  by_cases h6 : b = 12
  · subst h6; simp [escByte, readStr, unescape]
  by_cases h7 : b = 13
  · subst h7; simp [escByte, readStr, unescape]
  by_cases h8 : b < 32
  · have e : escByte b = b!"\\u00" ++ [hexLower (b / 16), hexLower (b % 16)] := by simp [escByte, h1, h2, h3, h4, h5, h6, h7, h8]
    rw [e]
    have x1 := unhexLower (b / 16) (by omega)
    have x2 := unhexLower (b % 16) (by omega)
    simp only [List.cons_append, List.nil_append, readStr, x1, x2]
    have : b / 16 < 8 := by omega
    rw [if_pos this]
    have : 16 * (b / 16) + b % 16 = b := by omega
    rw [this]
  · have e : escByte b = [b] := by simp [escByte, h1, h2, h3, h4, h5, h6, h7, h8]
    rw [e]
    simp only [List.cons_append, List.nil_append]
    rw [readStr.eq_5] <;> try (intros; omega)
    · rw [if_neg (by omega)]

theorem readStr_esc (b : Byte) (r : Str) : readStr (escByte b ++ r) = (readStr r).map fun p => (b :: p.1, p.2) := by
  by_cases hb : b < 128
  · exact readStr_esc_low b hb r
  · have e : escByte b = [b] := by
      unfold escByte
      rw [if_neg (by omega), if_neg (by omega), if_neg (by omega), if_neg (by omega), if_neg (by omega), if_neg (by omega),
        if_neg (by omega), if_neg (by omega)]
    rw [e]
    simp only [List.cons_append, List.nil_append]
    rw [readStr.eq_5] <;> try (intros; omega)
    · rw [if_neg (by omega)]

theorem readStr_write : ∀ (s r : Str), readStr (s.flatMap escByte ++ (b!"\"" ++ r)) = some (s, r)
  | [], r => by simp [readStr]
  | b :: s, r => by
    rw [List.flatMap_cons, List.append_assoc, readStr_esc, readStr_write s r]
    rfl

/-- The text behind a number does not carry it on. -/
def Stops : Str → Prop
  | [] => True
  | b :: _ => isDigit b = false ∧ b ≠ c!"." ∧ b ≠ c!"e" ∧ b ≠ c!"E"

theorem spanDigits_append : ∀ (ds r : Str), (∀ b ∈ ds, isDigit b = true) → Stops r → spanDigits (ds ++ r) = (ds, r)
  | [], [], _, _ => rfl
  | [], b :: r, _, h => by simp [spanDigits, h.1]
  | b :: ds, r, h, hr => by
    simp [spanDigits, h b (by simp), spanDigits_append ds r (fun x hx => h x (by simp [hx])) hr]

theorem decStr_head (n : Nat) : ∃ b r, decStr n = b :: r ∧ isDigit b = true ∧ (b = 48 → r = []) := by
  induction n using Nat.strongRecOn with
  | _ n ih =>
    rw [decStr]
    split
    · exact ⟨_, _, rfl, by simp [isDigit]; omega, fun _ => rfl⟩
    · rename_i h
      obtain ⟨b, r, e, hb, h0⟩ := ih (n / 10) (by omega)
      refine ⟨b, r ++ [48 + n % 10], by simp [e], hb, fun hz => ?_⟩
      have hr := h0 hz
      have hv := decStr_value (n / 10)
      rw [e, hz, hr] at hv
      simp [decValue] at hv
      omega

theorem readNum_write (n : Nat) (r : Str) (h : Stops r) : readNum (decStr n ++ r) = some (n, r) := by
  have hd : ∀ b ∈ decStr n, isDigit b = true := fun b hb => by
    have := decStr_digits n b hb
    simp [isDigit]; omega
  unfold readNum
  rw [spanDigits_append _ _ hd h]
  obtain ⟨b, t, e, _, h0⟩ := decStr_head n
  have hv : readDigits 0 (decStr n) = some n := (readDigits_iff 0 _ _).2 ⟨decStr_digits n, decStr_value n⟩
  rw [e] at hv ⊢
  simp only [List.head?_cons, Option.some.injEq, ne_eq, List.cons.injEq]
  rw [if_neg (fun hh => hh.2 ⟨hh.1, h0 hh.1⟩), hv]
  rw [if_neg]
  · rfl
  · cases r with
    | nil => simp
    | cons x r => simp only [List.head?_cons, Option.some.injEq]; exact fun hh => hh.elim h.2.1 fun hh => hh.elim h.2.2.1 h.2.2.2

/-- The first byte of a value. -/
def Starts (b : Byte) : Prop := isWs b = false ∧ b ≠ 93 ∧ b ≠ 125

instance (b : Byte) : Decidable (Starts b) := inferInstanceAs (Decidable (_ ∧ _))

theorem write_head (ind : Nat) (j : Json) : ∃ b r, (write ind j).1 = b :: r ∧ Starts b := by
  cases j with
  | null => exact ⟨_, _, rfl, by decide⟩
  | bool b => cases b <;> exact ⟨_, _, rfl, by decide⟩
  | num n =>
    obtain ⟨b, r, e, hb, _⟩ := decStr_head n
    refine ⟨b, r, by simp [write, e], ?_⟩
    simp only [isDigit, Bool.and_eq_true, decide_eq_true_eq] at hb
    refine ⟨by simp [isWs]; omega, by omega, by omega⟩
  | str s => exact ⟨34, _, by simp only [write, writeStr, List.cons_append, List.nil_append]; rfl, by decide⟩
  | arr xs =>
    cases xs with
    | nil => exact ⟨_, _, rfl, by decide⟩
    | cons x xs => exact ⟨91, (write ind (.arr (x :: xs))).1.tail, by simp only [write]; split <;> rfl, by decide⟩
  | obj fs =>
    cases fs with
    | nil => exact ⟨_, _, rfl, by decide⟩
    | cons x xs => exact ⟨123, (write ind (.obj (x :: xs))).1.tail, by simp only [write]; split <;> rfl, by decide⟩
  | torn => exact ⟨_, _, rfl, by decide⟩

theorem skipWs_spaces (n : Nat) (s : Str) : skipWs (List.replicate n 32 ++ s) = skipWs s := by
  induction n with
  | zero => rfl
  | succ n ih => simp [List.replicate_succ, skipWs, isWs, ih]

theorem skipWs_newLine (ind : Nat) (s : Str) : skipWs (newLine ind ++ s) = skipWs s := by
  simp [newLine, skipWs, isWs, skipWs_spaces]

theorem skipWs_start {b : Byte} (h : isWs b = false) (s : Str) : skipWs (b :: s) = b :: s := by simp [skipWs, h]

theorem readValue_newLine (n lim ind : Nat) (s : Str) : readValue n lim (newLine ind ++ s) = readValue n lim s := by
  cases n with
  | zero => simp [readValue]
  | succ n => rw [readValue, readValue, skipWs_newLine]

theorem readValue_space (n lim : Nat) (s : Str) : readValue n lim (32 :: s) = readValue n lim s := by
  cases n with
  | zero => simp [readValue]
  | succ n => rw [readValue, readValue, skipWs]; rfl

theorem stops_newLine (ind : Nat) (s : Str) : Stops (newLine ind ++ s) := by simp [newLine, Stops, isDigit]

theorem readNum_value (n lim m : Nat) (r : Str) (h : Stops r) :
    readValue (n + 1) lim (decStr m ++ r) = some (.num m, r) := by
  have hn := readNum_write m r h
  obtain ⟨b, t, e, hb, _⟩ := decStr_head m
  rw [e] at hn ⊢
  simp only [isDigit, Bool.and_eq_true, decide_eq_true_eq] at hb
  simp only [List.cons_append] at hn ⊢
  rw [readValue, skipWs_start (by simp [isWs]; omega)]
  split
  · simp_all
  · simp_all
  · simp_all
  · simp_all
  · rename_i heq
    simp only [List.cons.injEq] at heq
    obtain ⟨rfl, rfl⟩ := heq
    rw [if_neg (by omega), if_neg (by omega), if_neg (by omega), hn]
    rfl

theorem writeItems_false (ind : Nat) (x : Json) (xs : List Json) : writeItems ind false (x :: xs) =
    (b!"," ++ (writeItems ind true (x :: xs)).1, (writeItems ind true (x :: xs)).2) := by
  simp only [writeItems]
  split <;> simp

theorem writeFields_false (ind : Nat) (x : Str × Json) (xs : List (Str × Json)) : writeFields ind false (x :: xs) =
    (b!"," ++ (writeFields ind true (x :: xs)).1, (writeFields ind true (x :: xs)).2) := by
  obtain ⟨k, x⟩ := x
  simp only [writeFields]
  split <;> simp

mutual
theorem read_write : ∀ (j : Json) (ind lim n : Nat) (r : Str), j.Complete = true → j.depth < lim → Stops r →
    (write ind j).1.length ≤ n → (write ind j).2 = true ∧ readValue n lim ((write ind j).1 ++ r) = some (j, r)
  | .null, ind, lim, n, r, _, _, _, hn => by
    obtain ⟨n, rfl⟩ : ∃ m, n = m + 1 := ⟨n - 1, by simp [write] at hn; omega⟩
    simp [write, readValue, skipWs, isWs, readWord]
  | .bool b, ind, lim, n, r, _, _, _, hn => by
    obtain ⟨n, rfl⟩ : ∃ m, n = m + 1 := ⟨n - 1, by cases b <;> simp [write] at hn <;> omega⟩
    cases b <;> simp [write, readValue, skipWs, isWs, readWord]
  | .num m, ind, lim, n, r, _, _, hs, hn => by
    obtain ⟨n, rfl⟩ : ∃ m, n = m + 1 := by
      obtain ⟨b, t, e, _⟩ := decStr_head m
      exact ⟨n - 1, by simp [write, e] at hn; omega⟩
    exact ⟨by simp [write], by simp only [write]; exact readNum_value n lim m r hs⟩
  | .str s, ind, lim, n, r, _, _, _, hn => by
    obtain ⟨n, rfl⟩ : ∃ m, n = m + 1 := ⟨n - 1, by simp [write, writeStr] at hn; omega⟩
    refine ⟨by simp [write], ?_⟩
    simp only [write, writeStr, List.cons_append, List.nil_append, List.append_assoc]
    rw [readValue, skipWs_start (by decide)]
    simp only
    have := readStr_write s r
    simp only [List.cons_append, List.nil_append] at this
    rw [this]
    rfl
  | .arr [], ind, lim, n, r, _, hd, _, hn => by
    obtain ⟨n, rfl⟩ : ∃ m, n = m + 1 := ⟨n - 1, by simp [write] at hn; omega⟩
    simp only [depth, depths] at hd
    have : ¬ lim ≤ 1 := by omega
    simp [write, readValue, skipWs, isWs, this]
  | .arr (x :: xs), ind, lim, n, r, hc, hd, _, hn => by
    obtain ⟨n, rfl⟩ : ∃ m, n = m + 1 := ⟨n - 1, by simp only [write] at hn; split at hn <;> simp at hn <;> omega⟩
    simp only [Complete] at hc
    simp only [depth] at hd
    have hl : ¬ lim ≤ 1 := by omega
    obtain ⟨h1, h2⟩ := read_items (x :: xs) (ind + 1) (lim - 1) n (by simp) hc (by omega)
    simp only [write, h1, if_true] at hn ⊢
    simp only [List.length_append, List.length_cons, List.length_nil] at hn
    refine ⟨trivial, ?_⟩
    simp only [List.cons_append, List.nil_append, List.append_assoc]
    rw [readValue, skipWs_start (by decide)]
    simp only [if_neg hl]
    have h3 := h2 ind r (by omega)
    simp only [List.cons_append, List.nil_append, List.append_assoc] at h3
    have hw : ∃ b t, skipWs ((writeItems (ind + 1) true (x :: xs)).1 ++ (newLine ind ++ 93 :: r)) = b :: t ∧ b ≠ 93 := by
      obtain ⟨b, t, e, hb⟩ := write_head (ind + 1) x
      simp only [writeItems, if_true, List.nil_append]
      split <;> simp only [List.append_assoc, skipWs_newLine, e, List.cons_append, skipWs_start hb.1] <;> exact ⟨_, _, rfl, hb.2.1⟩
    obtain ⟨b, t, e, hb⟩ := hw
    rw [e]
    split
    · rename_i heq; simp_all
    · rw [h3]; rfl
  | .obj [], ind, lim, n, r, _, hd, _, hn => by
    obtain ⟨n, rfl⟩ : ∃ m, n = m + 1 := ⟨n - 1, by simp [write] at hn; omega⟩
    simp only [depth, depthFields] at hd
    have : ¬ lim ≤ 1 := by omega
    simp [write, readValue, skipWs, isWs, this]
  | .obj ((k, x) :: xs), ind, lim, n, r, hc, hd, _, hn => by
    obtain ⟨n, rfl⟩ : ∃ m, n = m + 1 := ⟨n - 1, by simp only [write] at hn; split at hn <;> simp at hn <;> omega⟩
    simp only [Complete] at hc
    simp only [depth] at hd
    have hl : ¬ lim ≤ 1 := by omega
    obtain ⟨h1, h2⟩ := read_fields ((k, x) :: xs) (ind + 1) (lim - 1) n (by simp) hc (by omega)
    simp only [write, h1, if_true] at hn ⊢
    simp only [List.length_append, List.length_cons, List.length_nil] at hn
    refine ⟨trivial, ?_⟩
    simp only [List.cons_append, List.nil_append, List.append_assoc]
    rw [readValue, skipWs_start (by decide)]
    simp only [if_neg hl]
    have h3 := h2 ind r (by omega)
    simp only [List.cons_append, List.nil_append, List.append_assoc] at h3
    have hw : ∃ b t, skipWs ((writeFields (ind + 1) true ((k, x) :: xs)).1 ++ (newLine ind ++ 125 :: r)) = b :: t ∧ b ≠ 125 := by
      simp only [writeFields, if_true, List.nil_append]
      split <;> simp only [List.append_assoc, skipWs_newLine, writeStr, List.cons_append, List.nil_append] <;>
        rw [skipWs_start (by decide)] <;> exact ⟨_, _, rfl, by decide⟩
    obtain ⟨b, t, e, hb⟩ := hw
    rw [e]
    split
    · rename_i heq; simp_all
    · rw [h3]; rfl
  | .torn, _, _, _, _, hc, _, _, _ => by simp [Complete] at hc
theorem read_items : ∀ (xs : List Json) (ind lim n : Nat), xs ≠ [] → Completes xs = true → depths xs < lim →
    (writeItems ind true xs).2 = true ∧ ∀ (o : Nat) (r : Str), (writeItems ind true xs).1.length ≤ n →
      readItems n lim ((writeItems ind true xs).1 ++ newLine o ++ b!"]" ++ r) = some (xs, r)
  | [], _, _, _, h, _, _ => absurd rfl h
  | [x], ind, lim, n, _, hc, hd => by
    simp only [Completes, Bool.and_true] at hc
    simp only [depths, Nat.max_zero] at hd
    have hx := fun m r hr hm => read_write x ind lim m r hc hd hr hm
    have h1 : (write ind x).2 = true := (hx _ [] trivial (Nat.le_refl _)).1
    simp only [writeItems, h1, if_true, List.append_nil, List.nil_append]
    refine ⟨trivial, fun o r hn => ?_⟩
    obtain ⟨n, rfl⟩ : ∃ m, n = m + 1 := ⟨n - 1, by simp [newLine] at hn; omega⟩
    simp only [List.append_assoc, List.cons_append, List.nil_append]
    rw [readItems, readValue_newLine, (hx n _ (stops_newLine _ _) (by simp [newLine] at hn; omega)).2]
    simp only [skipWs_newLine]
    rw [skipWs_start (by decide)]
    rfl
  | x :: y :: xs, ind, lim, n, _, hc, hd => by
    rw [Completes, Bool.and_eq_true] at hc
    rw [depths] at hd
    have hx := fun m r hr hm => read_write x ind lim m r hc.1 (by omega) hr hm
    have hy := read_items (y :: xs) ind lim (n - 1) (by simp) hc.2 (by omega)
    have h1 : (write ind x).2 = true := (hx _ [] trivial (Nat.le_refl _)).1
    rw [writeItems]
    simp only [h1, if_true, List.nil_append, writeItems_false]
    refine ⟨hy.1, fun o r hn => ?_⟩
    simp only [List.length_append, List.length_cons, List.length_nil, newLine, List.length_replicate] at hn
    obtain ⟨n, rfl⟩ : ∃ m, n = m + 1 := ⟨n - 1, by omega⟩
    have h3 := hy.2 o r (by omega)
    simp only [List.append_assoc, List.cons_append, List.nil_append] at h3 ⊢
    rw [readItems, readValue_newLine, (hx n _ (by simp [Stops, isDigit]) (by omega)).2]
    simp only
    rw [skipWs_start (by decide)]
    simp only [Nat.add_sub_cancel] at h3
    simp only [h3]
    rfl
theorem read_fields : ∀ (xs : List (Str × Json)) (ind lim n : Nat), xs ≠ [] → CompleteFields xs = true → depthFields xs < lim →
    (writeFields ind true xs).2 = true ∧ ∀ (o : Nat) (r : Str), (writeFields ind true xs).1.length ≤ n →
      readFields n lim ((writeFields ind true xs).1 ++ newLine o ++ b!"}" ++ r) = some (xs, r)
  | [], _, _, _, h, _, _ => absurd rfl h
  | [(k, x)], ind, lim, n, _, hc, hd => by
    simp only [CompleteFields, Bool.and_true] at hc
    simp only [depthFields, Nat.max_zero] at hd
    have hx := fun m r hr hm => read_write x ind lim m r hc hd hr hm
    have h1 : (write ind x).2 = true := (hx _ [] trivial (Nat.le_refl _)).1
    simp only [writeFields, h1, if_true, List.append_nil, List.nil_append]
    refine ⟨trivial, fun o r hn => ?_⟩
    simp only [List.length_append, List.length_cons, List.length_nil, newLine, List.length_replicate] at hn
    obtain ⟨n, rfl⟩ : ∃ m, n = m + 1 := ⟨n - 1, by omega⟩
    simp only [List.append_assoc, List.cons_append, List.nil_append, writeStr]
    rw [readFields, skipWs_newLine, skipWs_start (by decide)]
    have hk := readStr_write k (58 :: 32 :: ((write ind x).1 ++ (newLine o ++ 125 :: r)))
    simp only [List.cons_append, List.nil_append] at hk
    simp only [hk]
    rw [skipWs_start (by decide)]
    simp only [readValue_space]
    rw [(hx n _ (stops_newLine _ _) (by omega)).2]
    simp only [skipWs_newLine]
    rw [skipWs_start (by decide)]
    rfl
  | (k, x) :: y :: xs, ind, lim, n, _, hc, hd => by
    rw [CompleteFields, Bool.and_eq_true] at hc
    rw [depthFields] at hd
    have hx := fun m r hr hm => read_write x ind lim m r hc.1 (by omega) hr hm
    have hy := read_fields (y :: xs) ind lim (n - 1) (by simp) hc.2 (by omega)
    have h1 : (write ind x).2 = true := (hx _ [] trivial (Nat.le_refl _)).1
    rw [writeFields]
    simp only [h1, if_true, List.nil_append, writeFields_false]
    refine ⟨hy.1, fun o r hn => ?_⟩
    simp only [List.length_append, List.length_cons, List.length_nil, newLine, List.length_replicate] at hn
    obtain ⟨n, rfl⟩ : ∃ m, n = m + 1 := ⟨n - 1, by omega⟩
    have h3 := hy.2 o r (by omega)
    simp only [List.append_assoc, List.cons_append, List.nil_append, writeStr] at h3 ⊢
    rw [readFields, skipWs_newLine, skipWs_start (by decide)]
    have hk := readStr_write k (58 :: 32 :: ((write ind x).1 ++ 44 :: ((writeFields ind true (y :: xs)).1 ++ (newLine o ++ 125 :: r))))
    simp only [List.cons_append, List.nil_append] at hk
    simp only [hk]
    rw [skipWs_start (by decide)]
    simp only [readValue_space]
    rw [(hx n _ (by simp [Stops, isDigit]) (by omega)).2]
    simp only
    rw [skipWs_start (by decide)]
    simp only [Nat.add_sub_cancel] at h3
    simp only [h3]
    rfl
end

/-! ## What a reader must have seen -/

/-- Where a reader is: between tokens, in a string or after a backslash, in a number of brackets. -/
inductive St where
  | out (d : Nat)
  | str (d : Nat)
  | esc (d : Nat)
deriving DecidableEq

def St.step : St → Byte → St
  | .out d, b => if b = 34 then .str d else if b = 91 ∨ b = 123 then .out (d + 1) else if b = 93 ∨ b = 125 then .out (d - 1) else .out d
  | .str d, b => if b = 34 then .out d else if b = 92 then .esc d else .str d
  | .esc d, _ => .str d

def scan (st : St) (s : Str) : St := s.foldl St.step st

def St.level : St → Nat
  | .out d => d
  | .str d => d
  | .esc d => d

theorem scan_append (st : St) (a b : Str) : scan st (a ++ b) = scan (scan st a) b := List.foldl_append

theorem scan_cons (st : St) (a : Byte) (b : Str) : scan st (a :: b) = scan (st.step a) b := rfl

/-- A byte that changes nothing between tokens. -/
def Plain (b : Byte) : Prop := b ≠ 34 ∧ b ≠ 91 ∧ b ≠ 123 ∧ b ≠ 93 ∧ b ≠ 125

theorem scan_plain (d : Nat) : ∀ s : Str, (∀ b ∈ s, Plain b) → scan (.out d) s = .out d
  | [], _ => rfl
  | b :: s, h => by
    obtain ⟨h1, h2, h3, h4, h5⟩ := h b (by simp)
    rw [scan_cons, show St.step (.out d) b = .out d by simp [St.step, h1, h2, h3, h4, h5]]
    exact scan_plain d s fun x hx => h x (by simp [hx])

theorem skipWs_split : ∀ s : Str, ∃ w, s = w ++ skipWs s ∧ ∀ b ∈ w, Plain b
  | [] => ⟨[], rfl, by simp⟩
  | b :: s => by
    obtain ⟨w, e, h⟩ := skipWs_split s
    by_cases hb : isWs b = true
    · refine ⟨b :: w, by simp [skipWs, hb, ← e], ?_⟩
      intro x hx
      rcases List.mem_cons.1 hx with rfl | hx
      · simp [isWs] at hb
        simp only [Plain]; omega
      · exact h x hx
    · exact ⟨[], by simp [skipWs, hb], by simp⟩

/-- Reading from `s` up to `r` takes the scanner from one state to another. -/
def Takes (a b : St) (s r : Str) : Prop := ∃ p, s = p ++ r ∧ scan a p = b

theorem Takes.trans {a b c : St} {s r t : Str} (h1 : Takes a b s r) (h2 : Takes b c r t) : Takes a c s t := by
  obtain ⟨p, rfl, h1⟩ := h1
  obtain ⟨q, rfl, h2⟩ := h2
  exact ⟨p ++ q, by simp, by rw [scan_append, h1, h2]⟩

theorem Takes.cons {a c : St} {b : Byte} {s r : Str} (h : Takes (a.step b) c s r) : Takes a c (b :: s) r := by
  obtain ⟨p, rfl, h⟩ := h
  exact ⟨b :: p, rfl, h⟩

theorem Takes.refl (a : St) (s : Str) : Takes a a s s := ⟨[], rfl, rfl⟩

theorem Takes.ws (d : Nat) (s : Str) : Takes (.out d) (.out d) s (skipWs s) := by
  obtain ⟨w, e, h⟩ := skipWs_split s
  exact ⟨w, e, scan_plain d w h⟩

theorem Takes.ws' {d : Nat} {s r t : Str} {c : St} (e : skipWs s = t) (h : Takes (.out d) c t r) : Takes (.out d) c s r :=
  (Takes.ws d s).trans (e ▸ h)

theorem readStr_takes (d : Nat) : ∀ (s k r : Str), readStr s = some (k, r) → Takes (.str d) (.out d) s r := by
  intro s
  fun_induction readStr s with
  | case1 => simp
  | case2 r => intro k r' h; cases h; exact .cons (.refl _ _)
  | case3 a b r x y h1 h2 h3 ih =>
    intro k r' h
    simp only [Option.map_eq_some_iff] at h
    obtain ⟨⟨k', r''⟩, h4, h5⟩ := h
    cases h5
    refine .cons (.cons (.cons (.cons ?_)))
    simp only [St.step]
    have hx : ∀ (c : Byte) (v : Nat), hexOf c = some v → c ≠ 34 ∧ c ≠ 92 := by
      intro c v hc
      constructor <;> (intro e; rw [e] at hc; cases hc)
    have ha := hx a _ (by assumption)
    have hb := hx b _ (by assumption)
    refine .cons (.cons ?_)
    simpa [St.step, ha, hb] using ih _ _ h4
  | case4 => simp
  | case5 => simp
  | case6 e r hn x hx ih =>
    intro k r' h
    simp only [Option.map_eq_some_iff] at h
    obtain ⟨⟨k', r''⟩, h4, h5⟩ := h
    cases h5
    exact .cons (.cons (by simpa [St.step] using ih _ _ h4))
  | case7 => simp
  | case8 => simp
  | case9 b r h1 h2 h3 h4 ih =>
    intro k r' h
    simp only [Option.map_eq_some_iff] at h
    obtain ⟨⟨k', r''⟩, h6, h5⟩ := h
    cases h5
    refine .cons ?_
    have hb : b ≠ 34 ∧ b ≠ 92 := ⟨fun e => h1 e, fun e => h4 (.inr e)⟩
    simpa [St.step, hb] using ih _ _ h6

theorem spanDigits_takes (d : Nat) : ∀ s : Str, Takes (.out d) (.out d) s (spanDigits s).2
  | [] => .refl _ _
  | b :: s => by
    simp only [spanDigits]
    split
    · rename_i h
      simp only [isDigit, Bool.and_eq_true, decide_eq_true_eq] at h
      refine .cons ?_
      have : St.step (.out d) b = .out d := by
        simp only [St.step]; rw [if_neg (by omega), if_neg (by omega), if_neg (by omega)]
      rw [this]
      exact spanDigits_takes d s
    · exact .refl _ _

theorem readNum_takes (d : Nat) (s r : Str) (n : Nat) (h : readNum s = some (n, r)) : Takes (.out d) (.out d) s r := by
  have := spanDigits_takes d s
  unfold readNum at h
  split at h
  · simp at h
  · rename_i ds r' _ heq
    rw [heq] at this
    split at h
    · simp at h
    · split at h
      · simp at h
      · simp only [Option.map_eq_some_iff, Prod.mk.injEq] at h
        obtain ⟨_, _, _, rfl⟩ := h
        exact this

theorem readWord_takes (d : Nat) (w s r : Str) (hw : ∀ b ∈ w, Plain b) (h : readWord w s = some r) : Takes (.out d) (.out d) s r := by
  unfold readWord at h
  split at h
  · rename_i hp
    simp only [Option.some.injEq] at h
    rw [List.isPrefixOf_iff_prefix] at hp
    obtain ⟨t, rfl⟩ := hp
    simp only [List.drop_left] at h
    subst h
    exact ⟨w, rfl, scan_plain d w hw⟩
  · simp at h

theorem read_takes : ∀ n : Nat,
    (∀ lim s j r, 0 < lim → readValue n lim s = some (j, r) → j.depth < lim ∧ ∀ d, Takes (.out d) (.out d) s r) ∧
    (∀ lim s j r, 0 < lim → readItems n lim s = some (j, r) → depths j < lim ∧ ∀ d, Takes (.out (d + 1)) (.out d) s r) ∧
    (∀ lim s j r, 0 < lim → readFields n lim s = some (j, r) → depthFields j < lim ∧ ∀ d, Takes (.out (d + 1)) (.out d) s r)
  | 0 => by simp [readValue, readItems, readFields]
  | n + 1 => by
    obtain ⟨i1, i2, i3⟩ := read_takes n
    refine ⟨fun lim s j r hl h => ?_, fun lim s j r hl h => ?_, fun lim s j r hl h => ?_⟩
    · rw [readValue] at h
      split at h
      · simp at h
      · rename_i t heq
        simp only [Option.map_eq_some_iff, Prod.mk.injEq] at h
        obtain ⟨⟨k, r'⟩, h1, rfl, rfl⟩ := h
        exact ⟨by simpa [depth] using hl, fun d => .ws' heq (.cons (by simpa [St.step] using readStr_takes d _ _ _ h1))⟩
      · rename_i t heq
        split at h
        · simp at h
        · split at h
          · rename_i t' heq'
            simp only [Option.some.injEq, Prod.mk.injEq] at h
            obtain ⟨rfl, rfl⟩ := h
            refine ⟨by simp [depth, depths]; omega, fun d => .ws' heq (.cons ?_)⟩
            simp only [St.step]
            exact .ws' heq' (.cons (by simpa [St.step] using .refl _ _))
          · simp only [Option.map_eq_some_iff, Prod.mk.injEq] at h
            obtain ⟨⟨k, r'⟩, h1, rfl, rfl⟩ := h
            have := i2 (lim - 1) _ _ _ (by omega) h1
            exact ⟨by simp only [depth]; omega, fun d => .ws' heq (.cons (by simpa [St.step] using this.2 d))⟩
      · rename_i t heq
        split at h
        · simp at h
        · split at h
          · rename_i t' heq'
            simp only [Option.some.injEq, Prod.mk.injEq] at h
            obtain ⟨rfl, rfl⟩ := h
            refine ⟨by simp [depth, depthFields]; omega, fun d => .ws' heq (.cons ?_)⟩
            simp only [St.step]
            exact .ws' heq' (.cons (by simpa [St.step] using .refl _ _))
          · simp only [Option.map_eq_some_iff, Prod.mk.injEq] at h
            obtain ⟨⟨k, r'⟩, h1, rfl, rfl⟩ := h
            have := i3 (lim - 1) _ _ _ (by omega) h1
            exact ⟨by simp only [depth]; omega, fun d => .ws' heq (.cons (by simpa [St.step] using this.2 d))⟩
      · rename_i b t n1 n2 n3 heq
        have key : ∀ d, Takes (.out d) (.out d) (b :: t) r ∧ j.depth = 0 := by
          intro d
          split at h
          · rename_i hb
            subst hb
            simp only [Option.map_eq_some_iff, Prod.mk.injEq] at h
            obtain ⟨r', h1, rfl, rfl⟩ := h
            exact ⟨.cons (readWord_takes d _ _ _ (by simp [Plain]) h1), rfl⟩
          split at h
          · rename_i hb
            subst hb
            simp only [Option.map_eq_some_iff, Prod.mk.injEq] at h
            obtain ⟨r', h1, rfl, rfl⟩ := h
            exact ⟨.cons (readWord_takes d _ _ _ (by simp [Plain]) h1), rfl⟩
          split at h
          · rename_i hb
            subst hb
            simp only [Option.map_eq_some_iff, Prod.mk.injEq] at h
            obtain ⟨r', h1, rfl, rfl⟩ := h
            exact ⟨.cons (readWord_takes d _ _ _ (by simp [Plain]) h1), rfl⟩
          · simp only [Option.map_eq_some_iff, Prod.mk.injEq] at h
            obtain ⟨⟨k, r'⟩, h1, rfl, rfl⟩ := h
            exact ⟨readNum_takes d _ _ _ h1, rfl⟩
        exact ⟨by rw [(key 0).2]; exact hl, fun d => .ws' heq (key d).1⟩
    · rw [readItems] at h
      split at h
      · simp at h
      · rename_i x t hx
        have hx' := i1 lim _ _ _ hl hx
        split at h
        · rename_i t' heq
          simp only [Option.map_eq_some_iff, Prod.mk.injEq] at h
          obtain ⟨⟨k, r'⟩, h1, rfl, rfl⟩ := h
          have := i2 lim _ _ _ hl h1
          refine ⟨by simp only [depths]; omega, fun d => (hx'.2 (d + 1)).trans (.ws' heq (.cons (by simpa [St.step] using this.2 d)))⟩
        · rename_i t' heq
          simp only [Option.some.injEq, Prod.mk.injEq] at h
          obtain ⟨rfl, rfl⟩ := h
          exact ⟨by simp only [depths]; omega, fun d => (hx'.2 (d + 1)).trans (.ws' heq (.cons (by simpa [St.step] using .refl _ _)))⟩
        · simp at h
    · rw [readFields] at h
      split at h
      · rename_i t1 heq1
        split at h
        · simp at h
        · rename_i k t2 hk
          have hk' := fun d => readStr_takes d _ _ _ hk
          split at h
          · rename_i t3 heq3
            split at h
            · simp at h
            · rename_i x t hx
              have hx' := i1 lim _ _ _ hl hx
              have pre : ∀ d, Takes (.out (d + 1)) (.out (d + 1)) s t := fun d =>
                .ws' heq1 (.cons (by
                  refine Takes.trans (by simpa [St.step] using hk' (d + 1)) ?_
                  exact .ws' heq3 (.cons (by simpa [St.step] using hx'.2 (d + 1)))))
              split at h
              · rename_i t' heq
                simp only [Option.map_eq_some_iff, Prod.mk.injEq] at h
                obtain ⟨⟨k, r'⟩, h1, rfl, rfl⟩ := h
                have := i3 lim _ _ _ hl h1
                refine ⟨by simp only [depthFields]; omega, fun d => (pre d).trans (.ws' heq (.cons (by simpa [St.step] using this.2 d)))⟩
              · rename_i t' heq
                simp only [Option.some.injEq, Prod.mk.injEq] at h
                obtain ⟨rfl, rfl⟩ := h
                exact ⟨by simp only [depthFields]; omega, fun d => (pre d).trans (.ws' heq (.cons (by simpa [St.step] using .refl _ _)))⟩
              · simp at h
          · simp at h
      · simp at h

/-- What can be read as a whole closes all its brackets. -/
theorem ofText_scan {s : Str} {j : Json} (h : ofText s = some j) : scan (.out 0) s = .out 0 ∧ j.depth < 128 := by
  unfold ofText at h
  split at h
  · rename_i j' r hr
    split at h
    · rename_i hw
      simp only [Option.some.injEq] at h
      subst h
      obtain ⟨h1, h2⟩ := (read_takes _).1 _ _ _ _ (by decide) hr
      obtain ⟨p, e, hp⟩ := (h2 0).trans (Takes.ws 0 r)
      rw [hw, List.append_nil] at e
      exact ⟨e ▸ hp, h1⟩
    · simp at h
  · simp at h

/-! ## Torn texts -/

mutual
theorem write_complete : ∀ (j : Json) (ind : Nat), (write ind j).2 = j.Complete
  | .null, _ => by simp [write, Complete]
  | .bool _, _ => by simp [write, Complete]
  | .num _, _ => by simp [write, Complete]
  | .str _, _ => by simp [write, Complete]
  | .arr [], _ => by simp [write, Complete, Completes]
  | .arr (x :: xs), ind => by
    have := items_complete (x :: xs) (ind + 1) true
    simp only [write, Complete]
    split <;> simp_all
  | .obj [], _ => by simp [write, Complete, CompleteFields]
  | .obj (x :: xs), ind => by
    have := fields_complete (x :: xs) (ind + 1) true
    simp only [write, Complete]
    split <;> simp_all
  | .torn, _ => by simp [write, Complete]
theorem items_complete : ∀ (xs : List Json) (ind : Nat) (f : Bool), (writeItems ind f xs).2 = Completes xs
  | [], _, _ => by simp [writeItems, Completes]
  | x :: xs, ind, f => by
    have h1 := write_complete x ind
    have h2 := items_complete xs ind false
    simp only [writeItems, Completes]
    split <;> simp_all
theorem fields_complete : ∀ (xs : List (Str × Json)) (ind : Nat) (f : Bool), (writeFields ind f xs).2 = CompleteFields xs
  | [], _, _ => by simp [writeFields, CompleteFields]
  | (k, x) :: xs, ind, f => by
    have h1 := write_complete x ind
    have h2 := fields_complete xs ind false
    simp only [writeFields, CompleteFields]
    split <;> simp_all
end

/-- The scanner stays within `d` brackets. -/
def Above (d : Nat) : St → Str → Prop
  | st, [] => d ≤ st.level
  | st, b :: s => d ≤ st.level ∧ Above d (st.step b) s

theorem Above.start {d : Nat} {st : St} {s : Str} (h : Above d st s) : d ≤ st.level := by
  cases s with
  | nil => exact h
  | cons b s => exact h.1

theorem Above.append {d : Nat} : ∀ {st : St} {a b : Str}, Above d st a → Above d (scan st a) b → Above d st (a ++ b)
  | _, [], _, _, h => h
  | _, _ :: _, _, h, h' => ⟨h.1, Above.append h.2 h'⟩

theorem Above.take {d : Nat} : ∀ {st : St} {s : Str} (n : Nat), Above d st s → d ≤ (scan st (s.take n)).level
  | _, _, 0, h => by rw [List.take_zero]; exact h.start
  | _, [], _ + 1, h => by rw [List.take_nil]; exact h
  | _, b :: s, n + 1, h => by
    rw [List.take_succ_cons, scan_cons]
    exact Above.take n h.2

theorem Above.mono {d d' : Nat} (hd : d' ≤ d) : ∀ {st : St} {s : Str}, Above d st s → Above d' st s
  | _, [], h => Nat.le_trans hd h
  | _, _ :: _, h => ⟨Nat.le_trans hd h.1, Above.mono hd h.2⟩

theorem Above.plain (d : Nat) : ∀ s : Str, (∀ b ∈ s, Plain b) → Above d (.out d) s
  | [], _ => Nat.le_refl _
  | b :: s, h => by
    obtain ⟨h1, h2, h3, h4, h5⟩ := h b (by simp)
    refine ⟨Nat.le_refl _, ?_⟩
    rw [show St.step (.out d) b = .out d by simp [St.step, h1, h2, h3, h4, h5]]
    exact Above.plain d s fun x hx => h x (by simp [hx])

theorem newLine_plain (ind : Nat) : ∀ b ∈ newLine ind, Plain b := by
  intro b hb
  simp only [newLine, List.mem_cons, List.mem_replicate] at hb
  simp only [Plain]
  omega

theorem hexLower_range : ∀ n < 16, 48 ≤ hexLower n ∧ hexLower n ≠ 34 ∧ hexLower n ≠ 92 := by decide

theorem escByte_scan (d : Nat) (b : Byte) : Above d (.str d) (escByte b) ∧ scan (.str d) (escByte b) = .str d := by
  by_cases h : b < 32
  · have h1 := hexLower_range (b / 16) (by omega)
    have h2 := hexLower_range (b % 16) (by omega)
    unfold escByte
    repeat' split
    all_goals simp [Above, scan, St.step, St.level, h1, h2]
    all_goals omega
  · unfold escByte
    rw [if_neg (c := b = 8) (by omega), if_neg (c := b = 9) (by omega), if_neg (c := b = 10) (by omega),
      if_neg (c := b = 12) (by omega), if_neg (c := b = 13) (by omega), if_neg h]
    split
    · simp [Above, scan, St.step, St.level]
    · split
      · simp [Above, scan, St.step, St.level]
      · simp_all [Above, scan, St.step, St.level]

theorem escs_scan (d : Nat) : ∀ s : Str, Above d (.str d) (s.flatMap escByte) ∧ scan (.str d) (s.flatMap escByte) = .str d
  | [] => ⟨Nat.le_refl _, rfl⟩
  | b :: s => by
    obtain ⟨h1, h2⟩ := escByte_scan d b
    obtain ⟨h3, h4⟩ := escs_scan d s
    rw [List.flatMap_cons]
    exact ⟨h1.append (by rw [h2]; exact h3), by rw [scan_append, h2, h4]⟩

theorem writeStr_scan (d : Nat) (s : Str) : Above d (.out d) (writeStr s) ∧ scan (.out d) (writeStr s) = .out d := by
  obtain ⟨h1, h2⟩ := escs_scan d s
  unfold writeStr
  constructor
  · refine Above.append (.append ⟨Nat.le_refl _, Nat.le_refl _⟩ h1) ?_
    rw [scan_append, show scan (.out d) b!"\"" = .str d from rfl, h2]
    exact ⟨Nat.le_refl _, Nat.le_refl _⟩
  · rw [List.append_assoc, scan_append, scan_append]
    simp [scan, St.step]
    rw [show List.foldl St.step (St.str d) (List.flatMap escByte s) = .str d from h2]
    simp

theorem decStr_plain (n : Nat) : ∀ b ∈ decStr n, Plain b := by
  intro b hb
  have := decStr_digits n b hb
  simp only [Plain]
  omega

mutual
theorem write_scan : ∀ (j : Json) (ind d : Nat), Above d (.out d) (write ind j).1 ∧
    (j.Complete = true → scan (.out d) (write ind j).1 = .out d)
  | .null, _, d => by simp only [write]; exact ⟨.plain d _ (by simp [Plain]), fun _ => scan_plain d _ (by simp [Plain])⟩
  | .bool b, _, d => by cases b <;> simp only [write] <;> exact ⟨.plain d _ (by simp [Plain]), fun _ => scan_plain d _ (by simp [Plain])⟩
  | .num n, _, d => by simp only [write]; exact ⟨.plain d _ (decStr_plain n), fun _ => scan_plain d _ (decStr_plain n)⟩
  | .str s, _, d => by simp only [write]; exact ⟨(writeStr_scan d s).1, fun _ => (writeStr_scan d s).2⟩
  | .arr [], _, d => by simp [write, Above, scan, St.step, St.level]
  | .arr (x :: xs), ind, d => by
    obtain ⟨h1, h2⟩ := items_scan (x :: xs) (ind + 1) (d + 1) true
    have hc := items_complete (x :: xs) (ind + 1) true
    simp only [write, Complete]
    split
    · rename_i hr
      rw [hc] at hr
      have h3 := h2 hr
      have hn := scan_plain (d + 1) _ (newLine_plain ind)
      have e : scan (.out d) (b!"[" ++ (writeItems (ind + 1) true (x :: xs)).1 ++ newLine ind) = .out (d + 1) := by
        rw [scan_append, scan_append, show scan (.out d) b!"[" = .out (d + 1) from rfl, h3, hn]
      refine ⟨Above.append (.append (.append ⟨Nat.le_refl _, Nat.le_succ _⟩ ?_) ?_) ?_, fun _ => ?_⟩
      · exact h1.mono (Nat.le_succ _)
      · rw [scan_append, show scan (.out d) b!"[" = .out (d + 1) from rfl, h3]
        exact (Above.plain (d + 1) _ (newLine_plain ind)).mono (Nat.le_succ _)
      · rw [e]; exact ⟨Nat.le_succ _, Nat.le_refl _⟩
      · rw [scan_append, e]; rfl
    · rename_i hr
      rw [hc] at hr
      exact ⟨.append ⟨Nat.le_refl _, Nat.le_succ _⟩ (h1.mono (Nat.le_succ _)), fun h => absurd h hr⟩
  | .obj [], _, d => by simp [write, Above, scan, St.step, St.level]
  | .obj (x :: xs), ind, d => by
    obtain ⟨h1, h2⟩ := fields_scan (x :: xs) (ind + 1) (d + 1) true
    have hc := fields_complete (x :: xs) (ind + 1) true
    simp only [write, Complete]
    split
    · rename_i hr
      rw [hc] at hr
      have h3 := h2 hr
      have hn := scan_plain (d + 1) _ (newLine_plain ind)
      have e : scan (.out d) (b!"{" ++ (writeFields (ind + 1) true (x :: xs)).1 ++ newLine ind) = .out (d + 1) := by
        rw [scan_append, scan_append, show scan (.out d) b!"{" = .out (d + 1) from rfl, h3, hn]
      refine ⟨Above.append (.append (.append ⟨Nat.le_refl _, Nat.le_succ _⟩ ?_) ?_) ?_, fun _ => ?_⟩
      · exact h1.mono (Nat.le_succ _)
      · rw [scan_append, show scan (.out d) b!"{" = .out (d + 1) from rfl, h3]
        exact (Above.plain (d + 1) _ (newLine_plain ind)).mono (Nat.le_succ _)
      · rw [e]; exact ⟨Nat.le_succ _, Nat.le_refl _⟩
      · rw [scan_append, e]; rfl
    · rename_i hr
      rw [hc] at hr
      exact ⟨.append ⟨Nat.le_refl _, Nat.le_succ _⟩ (h1.mono (Nat.le_succ _)), fun h => absurd h hr⟩
  | .torn, _, d => by simp [write, Complete, Above, St.step, St.level]
theorem items_scan : ∀ (xs : List Json) (ind d : Nat) (f : Bool), Above d (.out d) (writeItems ind f xs).1 ∧
    (Completes xs = true → scan (.out d) (writeItems ind f xs).1 = .out d)
  | [], _, _, _ => by simp [writeItems, Above, scan, St.level]
  | x :: xs, ind, d, f => by
    obtain ⟨h1, h2⟩ := write_scan x ind d
    obtain ⟨h3, h4⟩ := items_scan xs ind d false
    have hp : ∀ b ∈ (if f = true then [] else b!",") ++ newLine ind, Plain b := by
      intro b hb
      rcases List.mem_append.1 hb with hb | hb
      · cases f <;> simp at hb
        simp only [Plain]; omega
      · exact newLine_plain ind b hb
    have hs := scan_plain d _ hp
    have ha := Above.plain d _ hp
    simp only [writeItems, Completes, Bool.and_eq_true]
    rw [write_complete]
    split
    · rename_i hc
      have h5 := h2 hc
      refine ⟨Above.append (.append ha (by rw [hs]; exact h1)) ?_, fun hh => ?_⟩
      · rw [scan_append, hs, h5]; exact h3
      · rw [scan_append, scan_append, hs, h5, h4 hh.2]
    · rename_i hc
      exact ⟨.append ha (by rw [hs]; exact h1), fun hh => absurd hh.1 hc⟩
theorem fields_scan : ∀ (xs : List (Str × Json)) (ind d : Nat) (f : Bool), Above d (.out d) (writeFields ind f xs).1 ∧
    (CompleteFields xs = true → scan (.out d) (writeFields ind f xs).1 = .out d)
  | [], _, _, _ => by simp [writeFields, Above, scan, St.level]
  | (k, x) :: xs, ind, d, f => by
    obtain ⟨h1, h2⟩ := write_scan x ind d
    obtain ⟨h3, h4⟩ := fields_scan xs ind d false
    have hp : ∀ b ∈ (if f = true then [] else b!",") ++ newLine ind, Plain b := by
      intro b hb
      rcases List.mem_append.1 hb with hb | hb
      · cases f <;> simp at hb
        simp only [Plain]; omega
      · exact newLine_plain ind b hb
    have hs : scan (.out d) ((if f = true then [] else b!",") ++ newLine ind ++ writeStr k ++ b!": ") = .out d := by
      rw [scan_append, scan_append, scan_plain d _ hp, (writeStr_scan d k).2]; rfl
    have ha : Above d (.out d) ((if f = true then [] else b!",") ++ newLine ind ++ writeStr k ++ b!": ") := by
      refine .append (.append (Above.plain d _ hp) ?_) ?_
      · rw [scan_plain d _ hp]; exact (writeStr_scan d k).1
      · rw [scan_append, scan_plain d _ hp, (writeStr_scan d k).2]; simp [Above, St.step, St.level]
    simp only [writeFields, CompleteFields, Bool.and_eq_true]
    rw [write_complete]
    split
    · rename_i hc
      have h5 := h2 hc
      refine ⟨Above.append (.append ha (by rw [hs]; exact h1)) ?_, fun hh => ?_⟩
      · rw [scan_append, hs, h5]; exact h3
      · rw [scan_append, scan_append, hs, h5, h4 hh.2]
    · rename_i hc
      exact ⟨.append ha (by rw [hs]; exact h1), fun hh => absurd hh.1 hc⟩
end

/-- A part of the text of an object is not read, nor is the text of an object that stops. -/
theorem ofText_torn {j : Json} (ho : j.isObj = true) (n : Nat) (h : n < j.toText.length ∨ j.Complete = false) :
    ofText (j.toText.take n) = none := by
  cases ht : j.toText.take n with
  | nil => simp [ofText, readValue, skipWs]
  | cons b t =>
    rw [← ht]
    cases hj : ofText (j.toText.take n) with
    | none => rfl
    | some v =>
      exfalso
      have hs := (ofText_scan hj).1
      obtain ⟨n, rfl⟩ : ∃ m, n = m + 1 := by
        cases n with
        | zero => simp at ht
        | succ m => exact ⟨m, rfl⟩
      have key : ∃ body, Above 1 (.out 1) body ∧ (j.toText.take (n + 1)) = 123 :: body.take n := by
        cases j with
        | obj fs =>
          cases fs with
          | nil =>
            refine ⟨[], Nat.le_refl _, ?_⟩
            simp [toText, write, Complete, CompleteFields] at h ⊢
            omega
          | cons f fs =>
            have h1 := (fields_scan (f :: fs) 1 1 true).1
            have h2 := (fields_scan (f :: fs) 1 1 true).2
            have hc := fields_complete (f :: fs) 1 true
            simp only [toText, write, Complete] at h ⊢
            split
            · rename_i hr
              rw [hr] at hc
              rw [if_pos hr, ← hc] at h
              refine ⟨(writeFields 1 true (f :: fs)).1 ++ newLine 0, .append h1 ?_, ?_⟩
              · rw [h2 hc.symm]; exact .plain 1 _ (newLine_plain 0)
              · simp only [List.cons_append, List.nil_append, List.take_succ_cons, List.cons.injEq, true_and]
                simp only [List.length_append, List.length_cons, List.length_nil, Bool.true_eq_false, or_false] at h
                rw [List.take_append_of_le_length (by simp only [List.length_append]; omega)]
            · exact ⟨_, h1, by simp⟩
        | torn => exact ⟨[], Nat.le_refl _, by simp [toText, write]⟩
        | _ => simp [isObj] at ho
      obtain ⟨body, h1, e⟩ := key
      rw [e, scan_cons] at hs
      have := h1.take n
      rw [show St.step (.out 0) 123 = .out 1 from rfl] at hs
      rw [hs] at this
      simp [St.level] at this

/-! ## Texts that are nested too deeply -/

theorem read_mono : ∀ n m lim lim' : Nat, n ≤ m → lim ≤ lim' →
    (∀ s v, readValue n lim s = some v → readValue m lim' s = some v) ∧
    (∀ s v, readItems n lim s = some v → readItems m lim' s = some v) ∧
    (∀ s v, readFields n lim s = some v → readFields m lim' s = some v)
  | 0, _, _, _, _, _ => by simp [readValue, readItems, readFields]
  | n + 1, m, lim, lim', hm, hl => by
    obtain ⟨m, rfl⟩ : ∃ k, m = k + 1 := ⟨m - 1, by omega⟩
    obtain ⟨i1, i2, i3⟩ := read_mono n m lim lim' (by omega) hl
    obtain ⟨_, k2, k3⟩ := read_mono n m (lim - 1) (lim' - 1) (by omega) (by omega)
    refine ⟨fun s v h => ?_, fun s v h => ?_, fun s v h => ?_⟩
    · rw [readValue] at h ⊢
      split at h
      · simp at h
      · exact h
      · split at h
        · simp at h
        · rw [if_neg (by omega)]
          split at h
          · exact h
          · simp only [Option.map_eq_some_iff] at h ⊢
            obtain ⟨p, h1, h2⟩ := h
            exact ⟨p, k2 _ _ h1, h2⟩
      · split at h
        · simp at h
        · rw [if_neg (by omega)]
          split at h
          · exact h
          · simp only [Option.map_eq_some_iff] at h ⊢
            obtain ⟨p, h1, h2⟩ := h
            exact ⟨p, k3 _ _ h1, h2⟩
      · exact h
    · rw [readItems] at h ⊢
      split at h
      · simp at h
      · rename_i x t hx
        rw [i1 _ _ hx]
        simp only
        split at h
        · simp only [Option.map_eq_some_iff] at h ⊢
          obtain ⟨p, h1, h2⟩ := h
          exact ⟨p, i2 _ _ h1, h2⟩
        · exact h
        · simp at h
    · rw [readFields] at h ⊢
      split at h
      · split at h
        · simp at h
        · split at h
          · split at h
            · simp at h
            · rename_i x t hx
              rw [i1 _ _ hx]
              simp only
              split at h
              · simp only [Option.map_eq_some_iff] at h ⊢
                obtain ⟨p, h1, h2⟩ := h
                exact ⟨p, i3 _ _ h1, h2⟩
              · exact h
              · simp at h
          · simp at h
      · simp at h

/-- Reading what was written. -/
theorem ofText_toText {j : Json} (hc : j.Complete = true) : ofText j.toText = if j.depth < 128 then some j else none := by
  split
  · rename_i hd
    have := (read_write j 0 128 (j.toText.length + 1) [] hc hd trivial (Nat.le_succ _)).2
    rw [List.append_nil] at this
    simp only [toText] at this ⊢
    simp [ofText, this, skipWs]
  · rename_i hd
    cases h : ofText j.toText with
    | none => rfl
    | some v =>
      exfalso
      have hv := (ofText_scan h).2
      unfold ofText at h
      split at h
      · rename_i w r hr
        split at h
        · simp only [Option.some.injEq] at h
          subst h
          have h1 := (read_mono _ (j.toText.length + 1) 128 (j.depth + 1) (Nat.le_refl _) (by omega)).1 _ _ hr
          have h2 := (read_write j 0 (j.depth + 1) (j.toText.length + 1) [] hc (Nat.lt_succ_self _) trivial (Nat.le_succ _)).2
          rw [List.append_nil] at h2
          rw [toText] at h1 h2
          rw [h2] at h1
          simp only [Option.some.injEq, Prod.mk.injEq] at h1
          rw [← h1.1] at hv
          omega
        · simp at h
      · simp at h

end Json
end Vw
