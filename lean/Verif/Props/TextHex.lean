import Verif.Spec.TextHex
import Verif.Props.Text
/-
C73: hexadecimal numbers and the words for infinity and NaN in texts.
-/
namespace Jules.Props
open Spec

theorem hexVal_ascii : ∀ n < 128, hexVal (Char.ofNat n) = hexTable.lookup (Char.ofNat n) := by decide +kernel

theorem hexTable_ascii : ∀ p ∈ hexTable, p.1.toNat < 128 := by decide +kernel

theorem lookup_none {β : Type} {l : List (Char × β)} {c : Char} (h : ∀ p ∈ l, p.1 ≠ c) : l.lookup c = none := by
  induction l with
  | nil => rfl
  | cons p l ih =>
    have h1 : (c == p.1) = false := by simpa using fun e => h p (by simp) e.symm
    obtain ⟨a, b⟩ := p
    simp only [List.lookup]
    simp only at h1
    rw [h1]
    exact ih fun q hq => h q (by simp [hq])

theorem hexVal_eq (c : Char) : hexVal c = hexTable.lookup c := by
  by_cases h : c.toNat < 128
  · have := hexVal_ascii c.toNat h
    rwa [Char.ofNat_toNat] at this
  · rw [lookup_none (c := c) (l := hexTable) fun p hp e => h (by rw [← e]; exact hexTable_ascii p hp)]
    have hd : c.isDigit = false := by
      rw [Bool.eq_false_iff]
      intro hc
      unfold Char.isDigit at hc
      simp only [Bool.and_eq_true, decide_eq_true_eq] at hc
      have h3 : c.val.toNat ≤ 57 := UInt32.le_iff_toNat_le.1 hc.2
      exact h (by show c.val.toNat < 128; omega)
    have hle : ∀ d : Char, d.toNat < 128 → ¬ c ≤ d := fun d hd hc => by
      have : c.val.toNat ≤ d.val.toNat := UInt32.le_iff_toNat_le.1 hc
      exact h (lt_of_le_of_lt this hd)
    unfold hexVal
    rw [if_neg (by simp [hd]), if_neg (fun h => hle 'f' (by decide) h.2), if_neg (fun h => hle 'F' (by decide) h.2)]

theorem lookup_isSome {β : Type} {l : List (Char × β)} {c : Char} : (l.lookup c).isSome = true ↔ ∃ v, (c, v) ∈ l := by
  induction l with
  | nil => simp
  | cons p l ih =>
    obtain ⟨a, b⟩ := p
    simp only [List.lookup]
    by_cases h : c = a
    · subst h; simp
    · have : (c == a) = false := by simpa using h
      rw [this]
      simp [ih, h]

theorem hexVal_isSome (c : Char) : (hexVal c).isSome = true ↔ ∃ v, (c, v) ∈ hexTable := by rw [hexVal_eq, lookup_isSome]

theorem ofHex_eq (l : List Char) : ofHex l = hexNumber l := by
  unfold ofHex hexNumber
  simp only [hexVal_eq]

/-- The exponent text. -/
def hexExp (n : HexNumeral) : List Char := match n.exp with | some (e, s, d) => e :: (s.toList ++ d) | none => []

/-- The text after the digits before the point. -/
def hexTail (n : HexNumeral) : List Char := (match n.frac with | some f => '.' :: f | none => []) ++ hexExp n

theorem hex_exp_value (n : HexNumeral) (hn : n.Ok) (rest : List Char) (hrest : HexStops rest) :
    (2 : ℚ) ^ scanExponent (fun c => c == 'p' || c == 'P') (hexExp n ++ rest) =
      (match n.exp with
        | some (_, s, d) => if s = some '-' then 1 / (2 : ℚ) ^ Nat.ofDigitChars 10 d 0 else (2 : ℚ) ^ Nat.ofDigitChars 10 d 0
        | none => 1) := by
  obtain ⟨-, -, -, -, -, h5⟩ := hn
  unfold hexExp
  cases he : n.exp with
  | none =>
    simp only [List.nil_append]
    cases rest with
    | nil => simp [scanExponent]
    | cons c r =>
      obtain ⟨-, -, h1, h2, -⟩ := hrest c rfl
      simp [scanExponent, h1, h2]
  | some p =>
    obtain ⟨e, s, d⟩ := p
    obtain ⟨h1, h2, h3, h4⟩ := h5 e s d he
    have hE : (e == 'p' || e == 'P') = true := by rcases h1 with rfl | rfl <;> decide
    simp only [List.cons_append, scanExponent, hE, if_true, List.append_assoc]
    have hsp : splitSign (s.toList ++ (d ++ rest)) = (decide (s = some '-'), d ++ rest) := by
      apply splitSign_toList s _ h2
      intro c hc
      cases d with
      | nil => exact absurd rfl h3
      | cons a d =>
        simp only [List.cons_append, List.head?_cons, Option.some.injEq] at hc
        subst hc
        have := h4 a (by simp)
        exact ⟨isDigit_ne this (by decide), isDigit_ne this (by decide)⟩
    rw [hsp]
    simp only
    have hdig : ∀ c, rest.head? = some c → c.isDigit = false := by
      intro c hc
      rw [Bool.eq_false_iff]
      intro hd
      have : (hexVal c).isSome = true := by simp [hexVal, hd]
      obtain ⟨v, hv⟩ := (hexVal_isSome c).1 this
      exact (hrest c hc).1 v hv
    rw [(takeWhile_append_stop h4 hdig).1]
    simp only [decide_eq_true_eq]
    split
    · rw [zpow_neg, zpow_natCast, one_div]
    · rw [zpow_natCast]

theorem scanHex_eq (n : HexNumeral) (hn : n.Ok) (rest : List Char) (hrest : HexStops rest) :
    scanHex (n.whole ++ (hexTail n ++ rest)) = some n.magnitude := by
  have hpow := hex_exp_value n hn rest hrest
  obtain ⟨-, -, h2, h3, h4, h5⟩ := hn
  have hexp : ∀ c, (hexExp n ++ rest).head? = some c → (hexVal c).isSome = false ∧ c ≠ '.' := by
    intro c hc
    have hno : ∀ c, (∀ v, (c, v) ∉ hexTable) → (hexVal c).isSome = false := fun c h => by
      rw [Bool.eq_false_iff]
      intro hs
      obtain ⟨v, hv⟩ := (hexVal_isSome c).1 hs
      exact h v hv
    unfold hexExp at hc
    cases he : n.exp with
    | none => rw [he] at hc; exact ⟨hno c (hrest c hc).1, (hrest c hc).2.1⟩
    | some p =>
      obtain ⟨e, s, d⟩ := p
      rw [he] at hc
      simp only [List.cons_append, List.head?_cons, Option.some.injEq] at hc
      subst hc
      rcases (h5 e s d he).1 with rfl | rfl <;> decide
  have hm : scanMantissa (fun c => (hexVal c).isSome) (n.whole ++ (hexTail n ++ rest)) =
      some (n.whole ++ n.frac.getD [], (n.frac.getD []).length, hexExp n ++ rest) := by
    have h2' : ∀ c ∈ n.whole, (hexVal c).isSome = true := fun c hc => (hexVal_isSome c).2 (h2 c hc)
    cases hf : n.frac with
    | none =>
      have ht : hexTail n = hexExp n := by unfold hexTail; rw [hf]; rfl
      rw [ht]
      obtain ⟨a, b⟩ := takeWhile_append_stop (p := fun c => (hexVal c).isSome) (l := n.whole) h2' (r := hexExp n ++ rest) (fun c hc => (hexp c hc).1)
      unfold scanMantissa
      rw [a, b]
      have hne : n.whole ≠ [] := by
        rcases h4 with h | ⟨f, h, -⟩
        · exact h
        · rw [hf] at h; cases h
      have hdot : ∀ t, hexExp n ++ rest ≠ '.' :: t := by
        intro t ht
        exact absurd rfl (hexp '.' (by rw [ht]; rfl)).2
      generalize hexExp n ++ rest = r at hdot
      match r, hdot with
      | [], _ => simp [hne]
      | c :: u, hdot =>
        have hc : c ≠ '.' := by rintro rfl; exact hdot u rfl
        simp [hne, hc]
    | some f =>
      have ht : hexTail n = '.' :: (f ++ hexExp n) := by unfold hexTail; rw [hf]; rfl
      rw [ht]
      simp only [List.cons_append, List.append_assoc]
      obtain ⟨a, b⟩ := takeWhile_append_stop (p := fun c => (hexVal c).isSome) (l := n.whole) h2' (r := '.' :: (f ++ (hexExp n ++ rest)))
        (fun c hc => by simp only [List.head?_cons, Option.some.injEq] at hc; subst hc; decide)
      obtain ⟨a', b'⟩ := takeWhile_append_stop (p := fun c => (hexVal c).isSome) (l := f) (fun c hc => (hexVal_isSome c).2 (h3 f hf c hc))
        (r := hexExp n ++ rest) (fun c hc => (hexp c hc).1)
      unfold scanMantissa
      rw [a, b]
      simp only [a', b']
      have hne : n.whole ++ f ≠ [] := by
        rcases h4 with h | ⟨g, h, h'⟩
        · simp [h]
        · rw [hf] at h; cases h; simp [h']
      rw [if_neg hne]
      simp
  unfold scanHex
  rw [hm]
  simp only [hpow, ofHex_eq]
  unfold HexNumeral.magnitude
  cases n.exp <;> rfl

/-- Reading a hexadecimal number. -/
theorem stodLib_hex (L : FpLib) (n : HexNumeral) (hn : n.Ok) (w : List Char) (hw : ∀ c ∈ w, isSpaceC c = true) (rest : List Char)
    (hrest : HexStops rest) :
    stodLib L (w ++ n.text ++ rest) =
      if 2 ^ 1024 ≤ |L.rnd n.value| then .error (.exc .outOfRange)
      else if L.under n.magnitude then .error (.exc .outOfRange)
      else if n.sign = some '-' ∧ L.rnd n.value = 0 then .ok .negZero
      else .ok (.fin (L.rnd n.value)) := by
  have hh := scanHex_eq n hn rest hrest
  obtain ⟨h1, hx, -⟩ := hn
  have ht : n.text ++ rest = n.sign.toList ++ ('0' :: n.x :: (n.whole ++ (hexTail n ++ rest))) := by
    unfold HexNumeral.text hexTail hexExp
    simp only [List.append_assoc, List.cons_append, List.nil_append]
    cases n.frac <;> cases n.exp <;> rfl
  have hdrop : (w ++ n.text ++ rest).dropWhile isSpaceC = n.sign.toList ++ ('0' :: n.x :: (n.whole ++ (hexTail n ++ rest))) := by
    rw [List.append_assoc, ht]
    refine (takeWhile_append_stop hw ?_).2
    intro c hc
    cases hs : n.sign with
    | none => rw [hs] at hc; cases hc; decide
    | some s =>
      rw [hs] at hc
      simp only [Option.toList_some, List.cons_append, List.head?_cons, Option.some.injEq] at hc
      subst hc
      rcases h1 s hs with rfl | rfl <;> decide
  have hmag : scanMagnitude ('0' :: n.x :: (n.whole ++ (hexTail n ++ rest))) = some (.num n.magnitude) := by
    have h0 : ('0' : Char).toLower = '0' := by decide
    have hxl : n.x.toLower = 'x' := by rcases hx with h | h <;> rw [h] <;> decide
    unfold scanMagnitude
    rw [if_neg (by simp [h0]), if_neg (by simp [h0]), if_pos (by simp [h0, hxl])]
    simp only [List.drop_succ_cons, List.drop_zero, hh]
  unfold stodLib
  rw [hdrop, splitSign_toList n.sign _ h1 (fun c hc => by cases hc; decide)]
  simp only [hmag]
  unfold HexNumeral.value
  simp only [decide_eq_true_eq]

/-- **C73** (reading hexadecimal numbers). Also `0x` followed by hexadecimal digits, with a point or an exponent of two or without, is read as a
double nearest to it, with its sign, under the conditions of `C73_read`: a text column with `0x1F` converts to a numeric column with 31. -/
theorem C73_read_hex (L : FpLib) (hL : LibOk L) (n : HexNumeral) (hn : n.Ok) (w rest : Txt) (hw : ∀ c ∈ w, isSpaceC c = true) (hrest : HexStops rest) :
    (∀ y, (libFp L).stod (w ++ n.text ++ rest) = .ok y →
      ∃ p, numberOf y = some p ∧ IsF64 y ∧ (signBit y = true ↔ n.sign = some '-') ∧ ∀ d, IsDouble d → |n.value - p| ≤ |n.value - d|) ∧
    (∀ e, (libFp L).stod (w ++ n.text ++ rest) = .error e →
      e = .exc .outOfRange ∧ (2 ^ 1024 ≤ |L.rnd n.value| ∨ (n.value ≠ 0 ∧ |n.value| < (2 : ℚ) ^ (-1022 : ℤ)))) := by
  have hm0 : 0 ≤ n.magnitude := by
    unfold HexNumeral.magnitude
    refine mul_nonneg (by positivity) ?_
    split
    · split <;> positivity
    · norm_num
  have hva : |n.value| = n.magnitude := by
    unfold HexNumeral.value
    split
    · rw [abs_neg, abs_of_nonneg hm0]
    · rw [abs_of_nonneg hm0]
  show (∀ y, stodLib L _ = _ → _) ∧ (∀ e, stodLib L _ = _ → _)
  rw [stodLib_hex L n hn w hw rest hrest]
  split
  · rename_i h
    exact ⟨fun y hy => (by cases hy), fun e he => (by cases he; exact ⟨rfl, Or.inl h⟩)⟩
  · rename_i hfin
    split
    · rename_i h
      refine ⟨fun y hy => (by cases hy), fun e he => ?_⟩
      cases he
      obtain ⟨a, b⟩ := hL.2 _ h
      refine ⟨rfl, Or.inr ⟨?_, ?_⟩⟩
      · intro h0
        rw [h0, abs_zero] at hva
        exact a hva.symm
      · rwa [abs_of_nonneg hm0, ← hva] at b
    · split
      · rename_i h
        refine ⟨fun y hy => ?_, fun e he => (by cases he)⟩
        cases hy
        refine ⟨0, rfl, trivial, ⟨fun _ => h.1, fun _ => rfl⟩, ?_⟩
        rw [← h.2]
        exact (hL.1 n.value).2
      · rename_i h
        refine ⟨fun y hy => ?_, fun e he => (by cases he)⟩
        cases hy
        refine ⟨_, rfl, ⟨(hL.1 n.value).1, not_le.1 hfin⟩, ?_, (hL.1 n.value).2⟩
        simp only [signBit, decide_eq_true_eq]
        constructor
        · intro hneg
          by_contra hc
          have : n.value = n.magnitude := by unfold HexNumeral.value; rw [if_neg hc]
          rw [this] at hneg
          have := rnd_nonneg_of hL.1 hm0
          linarith
        · intro hs
          have : n.value = -n.magnitude := by unfold HexNumeral.value; rw [if_pos hs]
          have h2 : L.rnd n.value ≤ 0 := rnd_neg_of hL.1 (by rw [this]; linarith)
          exact lt_of_le_of_ne h2 fun h0 => h ⟨hs, h0⟩

/-- `-0x1a.8p+1` is -53. -/
example (L : FpLib) (hL : LibOk L) : (∀ e, (libFp L).stod " -0x1a.8p+1,".toList = .error e → e = .exc .outOfRange) ∧
    ∀ y, (libFp L).stod " -0x1a.8p+1,".toList = .ok y → ∃ p, numberOf y = some p ∧ signBit y = true ∧ ∀ d, IsDouble d → |(-53 : ℚ) - p| ≤ |-53 - d| := by
  have hn : (HexNumeral.mk (some '-') 'x' ['1', 'a'] (some ['8']) (some ('p', some '+', ['1']))).Ok := by
    refine ⟨by simp, Or.inl rfl, ?_, ?_, Or.inl (by simp), ?_⟩
    · intro c hc; exact lookup_isSome.1 (by revert c; decide +kernel)
    · rintro f ⟨⟩ c hc; exact lookup_isSome.1 (by revert c; decide +kernel)
    · rintro e s d ⟨⟩; exact ⟨Or.inl rfl, by simp, by simp, by decide⟩
  have hv : (HexNumeral.mk (some '-') 'x' ['1', 'a'] (some ['8']) (some ('p', some '+', ['1']))).value = -53 := by decide +kernel
  have h := C73_read_hex L hL _ hn [' '] [','] (by decide) (by
    rintro c ⟨⟩
    refine ⟨fun v hv => ?_, by decide, by decide, by decide, by decide, by decide⟩
    have : (hexTable.lookup ',').isSome = true := lookup_isSome.2 ⟨v, hv⟩
    exact absurd this (by decide +kernel))
  rw [hv] at h
  exact ⟨fun e he => (h.2 e he).1, fun y hy => by
    obtain ⟨p, h1, -, h3, h4⟩ := h.1 y hy
    exact ⟨p, h1, h3.2 rfl, h4⟩⟩

/-- **C73** (words). A text that, after white space and a sign, starts with `inf` or `nan` in any case is read as an infinity or a NaN with that
sign, whatever follows. -/
theorem C73_read_word (L : FpLib) (w : Txt) (hw : ∀ c ∈ w, isSpaceC c = true) (sign : Option Char) (hs : ∀ c, sign = some c → c = '-' ∨ c = '+')
    (a b c : Char) (rest : Txt) :
    ([a.toLower, b.toLower, c.toLower] = ['i', 'n', 'f'] →
      (libFp L).stod (w ++ sign.toList ++ a :: b :: c :: rest) = .ok (.inf (decide (sign = some '-')))) ∧
    ([a.toLower, b.toLower, c.toLower] = ['n', 'a', 'n'] →
      (libFp L).stod (w ++ sign.toList ++ a :: b :: c :: rest) = .ok (.nan (decide (sign = some '-')))) := by
  have key : (a.toLower = 'i' ∨ a.toLower = 'n') → ∀ t, isSpaceC a = false ∧
      splitSign ((w ++ sign.toList ++ a :: t).dropWhile isSpaceC) = (decide (sign = some '-'), a :: t) := by
    intro ha t
    have h3 : isSpaceC a = false ∧ a ≠ '-' ∧ a ≠ '+' := by
      refine ⟨?_, ?_, ?_⟩
      · rw [Bool.eq_false_iff]
        intro hsp
        unfold isSpaceC at hsp
        simp only [Bool.or_eq_true, beq_iff_eq] at hsp
        rcases hsp with ((((h | h) | h) | h) | h) | h <;> subst h <;> revert ha <;> decide
      · rintro rfl; revert ha; decide
      · rintro rfl; revert ha; decide
    refine ⟨h3.1, ?_⟩
    rw [List.append_assoc, (takeWhile_append_stop hw ?_).2]
    · exact splitSign_toList sign _ hs fun c hc => by cases hc; exact h3.2
    · intro c hc
      cases hsg : sign with
      | none => rw [hsg] at hc; cases hc; exact h3.1
      | some s =>
        rw [hsg] at hc
        simp only [Option.toList_some, List.cons_append, List.head?_cons, Option.some.injEq] at hc
        subst hc
        rcases hs s hsg with rfl | rfl <;> decide
  constructor
  · intro h
    simp only [List.cons.injEq, and_true] at h
    show stodLib L _ = _
    unfold stodLib
    rw [(key (Or.inl h.1) _).2]
    simp [scanMagnitude, h]
  · intro h
    simp only [List.cons.injEq, and_true] at h
    show stodLib L _ = _
    unfold stodLib
    rw [(key (Or.inr h.1) _).2]
    simp [scanMagnitude, h]

example (L : FpLib) : (libFp L).stod " -Infinity".toList = .ok (.inf true) :=
  (C73_read_word L [' '] (by decide) (some '-') (by simp) 'I' 'n' 'f' "inity".toList).1 (by decide)

end Jules.Props
