import Verif.ErrorText
import Verif.Demo
import Mathlib.Data.List.Basic

/-! # C70: the text of an error determines the error -/

namespace Rgb
namespace ErrorText

theorem until_sep {α : Type} {l l' r r' : List α} {s : α} (hl : s ∉ l) (hl' : s ∉ l') (h : l ++ s :: r = l' ++ s :: r') :
    l = l' ∧ r = r' := by
  induction l generalizing l' with
  | nil =>
    cases l' with
    | nil => simpa using h
    | cons a l' => simp at h; simp [h.1] at hl'
  | cons a l ih =>
    cases l' with
    | nil => simp at h; simp [h.1] at hl
    | cons b l' =>
      simp only [List.cons_append, List.cons.injEq] at h
      simp only [List.mem_cons, not_or] at hl hl'
      obtain ⟨h1, h2⟩ := ih hl.2 hl'.2 h.2
      exact ⟨by rw [h.1, h1], h2⟩

theorem digitChar_inj {m n : Nat} (hm : m < 16) (hn : n < 16) (h : Nat.digitChar m = Nat.digitChar n) : m = n := by
  have : ∀ m < 16, ∀ n < 16, Nat.digitChar m = Nat.digitChar n → m = n := by decide
  exact this m hm n hn h

theorem digitChar_ne {m : Nat} (hm : m < 16) : Nat.digitChar m ≠ '\n' ∧ Nat.digitChar m ≠ ':' ∧ Nat.digitChar m ≠ '}' := by
  have : ∀ m < 16, Nat.digitChar m ≠ '\n' ∧ Nat.digitChar m ≠ ':' ∧ Nat.digitChar m ≠ '}' := by decide
  exact this m hm

theorem numeral_ne_nil (b n : Nat) : numeral b n ≠ [] := by
  unfold numeral
  split <;> simp

theorem numeral_inj {b : Nat} (h2 : 2 ≤ b) (h16 : b ≤ 16) {m n : Nat} (h : numeral b m = numeral b n) : m = n := by
  induction m using Nat.strongRecOn generalizing n with
  | _ m ih =>
    unfold numeral at h
    by_cases hm : m < b
    · by_cases hn : n < b
      · rw [dif_pos (.inl hm), dif_pos (.inl hn)] at h
        exact digitChar_inj (by omega) (by omega) (by simpa using h)
      · rw [dif_pos (.inl hm), dif_neg (by omega)] at h
        have := List.append_inj_left' (s₁ := []) h rfl
        exact absurd this.symm (numeral_ne_nil _ _)
    · by_cases hn : n < b
      · rw [dif_neg (by omega), dif_pos (.inl hn)] at h
        have := List.append_inj_left' (s₂ := []) h rfl
        exact absurd this (numeral_ne_nil _ _)
      · rw [dif_neg (by omega), dif_neg (by omega)] at h
        obtain ⟨h1, h3⟩ := List.append_inj' h rfl
        have e1 := ih (m / b) (Nat.div_lt_self (by omega) (by omega)) h1
        have e2 := digitChar_inj (m := m % b) (n := n % b) (by have := Nat.mod_lt m (show b > 0 by omega); omega)
          (by have := Nat.mod_lt n (show b > 0 by omega); omega) (by simpa using h3)
        rw [← Nat.div_add_mod m b, ← Nat.div_add_mod n b, e1, e2]

theorem mem_numeral {b : Nat} (h2 : 2 ≤ b) (h16 : b ≤ 16) {n : Nat} {c : Char} (h : c ∈ numeral b n) : ∃ k, k < 16 ∧ c = Nat.digitChar k := by
  induction n using Nat.strongRecOn with
  | _ n ih =>
    unfold numeral at h
    split at h
    · rename_i hn
      exact ⟨n, by omega, by simpa using h⟩
    · rename_i hn
      rcases List.mem_append.1 h with h | h
      · exact ih _ (Nat.div_lt_self (by omega) (by omega)) h
      · exact ⟨n % b, by have := Nat.mod_lt n (show b > 0 by omega); omega, by simpa using h⟩

theorem numeral_plain {b : Nat} (h2 : 2 ≤ b) (h16 : b ≤ 16) (n : Nat) :
    '\n' ∉ numeral b n ∧ ':' ∉ numeral b n ∧ '}' ∉ numeral b n := by
  refine ⟨?_, ?_, ?_⟩ <;> intro h <;> obtain ⟨k, hk, e⟩ := mem_numeral h2 h16 h <;> have := digitChar_ne hk
  · exact this.1 e.symm
  · exact this.2.1 e.symm
  · exact this.2.2 e.symm

theorem length_hex (k n : Nat) : (hex k n).length = k := by
  induction k generalizing n with
  | zero => rfl
  | succ k ih => simp [hex, ih]

theorem hex_inj {k m n : Nat} (hm : m < 16 ^ k) (hn : n < 16 ^ k) (h : hex k m = hex k n) : m = n := by
  induction k generalizing m n with
  | zero => simp at hm hn; omega
  | succ k ih =>
    simp only [hex] at h
    obtain ⟨h1, h2⟩ := List.append_inj' h rfl
    have e1 := ih (m := m / 16) (n := n / 16) (by rw [Nat.pow_succ] at hm; omega) (by rw [Nat.pow_succ] at hn; omega) h1
    have e2 := digitChar_inj (Nat.mod_lt m (by omega)) (Nat.mod_lt n (by omega)) (by simpa using h2)
    omega

theorem hex_plain (k n : Nat) : '\n' ∉ hex k n := by
  induction k generalizing n with
  | zero => simp [hex]
  | succ k ih =>
    simp only [hex, List.mem_append, List.mem_singleton, not_or]
    exact ⟨ih _, fun h => (digitChar_ne (Nat.mod_lt n (by omega))).1 h.symm⟩

/-- Codes that can be recognised at the beginning of a text. -/
def Delimited {α : Type} (f : α → List Char) : Prop := ∀ a b x y, f a ++ x = f b ++ y → a = b ∧ x = y

/-- The characters with escapes of their own. -/
def special (c : Char) : Option Char :=
  if c = '\x00' then some '0' else if c = '\t' then some 't' else if c = '\r' then some 'r'
  else if c = '\n' then some 'n' else if c = '"' then some '"' else if c = '\\' then some '\\' else none

theorem escape_cases (p : Char → Bool) (c : Char) :
    (∃ e, special c = some e ∧ escape p c = ['\\', e]) ∨ (escape p c = [c] ∧ c ≠ '\\' ∧ c ≠ '"' ∧ c ≠ '\n') ∨
      escape p c = '\\' :: 'u' :: '{' :: (numeral 16 c.toNat ++ ['}']) := by
  unfold escape special
  repeat' split
  all_goals first
    | exact .inl ⟨_, rfl, rfl⟩
    | exact .inr (.inl ⟨rfl, by assumption, by assumption, by assumption⟩)
    | exact .inr (.inr rfl)

theorem special_inj {c d e : Char} (h : special c = some e) (h' : special d = some e) : c = d := by
  have key : ∀ c e, special c = some e → (c, e) ∈ [('\x00', '0'), ('\t', 't'), ('\r', 'r'), ('\n', 'n'), ('"', '"'), ('\\', '\\')] := by
    intro c e h
    unfold special at h
    split_ifs at h <;> (obtain rfl := Option.some.inj h; subst_vars; simp)
  have : ∀ a ∈ [('\x00', '0'), ('\t', 't'), ('\r', 'r'), ('\n', 'n'), ('"', '"'), ('\\', '\\')],
      ∀ b ∈ [('\x00', '0'), ('\t', 't'), ('\r', 'r'), ('\n', 'n'), ('"', '"'), ('\\', '\\')], a.2 = b.2 → a.1 = b.1 := by decide
  exact this _ (key c e h) _ (key d e h') rfl

theorem special_ne {c e : Char} (h : special c = some e) : e ≠ 'u' ∧ e ≠ '\n' := by
  unfold special at h
  split_ifs at h <;> (obtain rfl := Option.some.inj h; decide)

theorem escape_delimited (p : Char → Bool) : Delimited (escape p) := by
  intro c d x y h
  rcases escape_cases p c with ⟨e, h1, h2⟩ | ⟨h2, h3, _⟩ | h2 <;>
    rcases escape_cases p d with ⟨e', h1', h2'⟩ | ⟨h2', h3', _⟩ | h2' <;> rw [h2, h2'] at h <;>
    simp only [List.cons_append, List.nil_append, List.cons.injEq, true_and] at h
  · obtain ⟨rfl, rfl⟩ := h
    exact ⟨special_inj h1 h1', rfl⟩
  · exact absurd h.1.symm h3'
  · exact absurd h.1 (special_ne h1).1
  · exact absurd h.1 h3
  · exact h
  · exact absurd h.1 h3
  · exact absurd h.1.symm (special_ne h1').1
  · exact absurd h.1.symm h3'
  · rw [List.append_assoc, List.append_assoc] at h
    obtain ⟨h1, h2⟩ := until_sep (numeral_plain (by omega) (by omega) _).2.2 (numeral_plain (by omega) (by omega) _).2.2 h
    exact ⟨Char.toNat_inj.1 (numeral_inj (by omega) (by omega) h1), h2⟩

theorem escape_head (p : Char → Bool) (c : Char) : ∃ a l, escape p c = a :: l ∧ a ≠ '"' := by
  rcases escape_cases p c with ⟨e, h1, h2⟩ | ⟨h2, _, h3, _⟩ | h2
  · exact ⟨_, _, h2, by decide⟩
  · exact ⟨_, _, h2, h3⟩
  · exact ⟨_, _, h2, by decide⟩

theorem escape_plain (p : Char → Bool) (c : Char) : '\n' ∉ escape p c := by
  rcases escape_cases p c with ⟨e, h1, h2⟩ | ⟨h2, _, _, h3⟩ | h2 <;> rw [h2]
  · simpa using fun h => (special_ne h1).2 h.symm
  · simpa using fun h => h3 h.symm
  · have := (numeral_plain (b := 16) (by omega) (by omega) c.toNat).1
    simpa using this

/-- A list of delimited codes is delimited by a character with which none of them begins. -/
theorem delimited_list {α : Type} {f : α → List Char} (hf : Delimited f) {s : Char} (hs : ∀ a, ∃ c l, f a = c :: l ∧ c ≠ s)
    {l m : List α} {x y : List Char} (h : l.flatMap f ++ s :: x = m.flatMap f ++ s :: y) : l = m ∧ x = y := by
  induction l generalizing m with
  | nil =>
    cases m with
    | nil => simpa using h
    | cons b m =>
      obtain ⟨c, k, e, hc⟩ := hs b
      simp [e] at h
      exact absurd h.1.symm hc
  | cons a l ih =>
    cases m with
    | nil =>
      obtain ⟨c, k, e, hc⟩ := hs a
      simp [e] at h
      exact absurd h.1 hc
    | cons b m =>
      simp only [List.flatMap_cons, List.append_assoc] at h
      obtain ⟨rfl, h'⟩ := hf _ _ _ _ h
      obtain ⟨rfl, h''⟩ := ih h'
      exact ⟨rfl, h''⟩

theorem quote_delimited (p : Char → Bool) : Delimited (quote p) := by
  intro s t x y h
  simp only [quote, List.append_assoc, List.cons_append, List.nil_append, List.cons.injEq, true_and] at h
  exact delimited_list (escape_delimited p) (escape_head p) h

theorem quote_plain (p : Char → Bool) (s : List Char) : '\n' ∉ quote p s := by
  simp only [quote, List.mem_append, List.mem_flatMap, List.mem_singleton, not_or, not_exists, not_and]
  exact ⟨⟨by decide, fun c _ => escape_plain p c⟩, by decide⟩

theorem pad_plain {s : List Char} (h : '\n' ∉ s) : pad s = "    ".toList ++ s := by
  unfold pad
  congr 1
  induction s with
  | nil => rfl
  | cons c s ih =>
    simp only [List.mem_cons, not_or] at h
    rw [List.flatMap_cons, ih h.2, if_neg (fun e => h.1 e.symm)]
    rfl

theorem flatMap_plain {s : List Char} (h : '\n' ∉ s) :
    (s.flatMap fun c => if c = '\n' then "\n    ".toList else [c]) = s :=
  List.append_cancel_left (pad_plain h)

theorem braces_delimited {α : Type} {g : α → List Char} (hg : Delimited fun a => pad (g a) ++ ",\n".toList) :
    Delimited fun l : List α => braces (l.map g) := by
  have head : ∀ a, ∃ c l, pad (g a) ++ ",\n".toList = c :: l ∧ c ≠ '}' := fun a => ⟨_, _, rfl, by decide⟩
  intro l m x y h
  cases l with
  | nil =>
    cases m with
    | nil => exact ⟨rfl, List.append_cancel_left h⟩
    | cons b m => exact absurd (congrArg (fun l : List Char => l[1]?) h) (by simp [braces])
  | cons a l =>
    cases m with
    | nil => exact absurd (congrArg (fun l : List Char => l[1]?) h) (by simp [braces])
    | cons b m =>
      simp only [braces, List.map_cons, List.isEmpty_cons, Bool.false_eq_true, if_false, List.append_assoc] at h
      have := List.append_cancel_left h
      rw [← List.map_cons, ← List.map_cons, List.flatMap_map, List.flatMap_map] at this
      exact delimited_list hg head this

theorem token_layout (t : AuthToken) : pad (token t) ++ ",\n".toList =
    "    AuthToken(\n        fe256(\n            0x".toList ++ hex 64 t.fe ++ ",\n        ),\n    ),\n".toList := by
  have hf := flatMap_plain (hex_plain 64 t.fe)
  rw [show "\n    ".toList = ['\n', ' ', ' ', ' ', ' '] from rfl] at hf
  simp [token, tuple, pad, List.flatMap_append, hf]

theorem token_delimited : Delimited fun t => pad (token t) ++ ",\n".toList := by
  intro t t' x y h
  simp only [token_layout, List.append_assoc] at h
  obtain ⟨h1, h2⟩ := List.append_inj (List.append_cancel_left h) (by rw [length_hex, length_hex])
  have e : (t.fe : Nat) = t'.fe := hex_inj (by have := t.fe.isLt; omega) (by have := t'.fe.isLt; omega) h1
  refine ⟨?_, List.append_cancel_left h2⟩
  cases t; cases t'
  exact congrArg _ (Fin.ext e)

theorem tokens_delimited : Delimited tokens := by
  intro s t x y h
  obtain ⟨h1, h2⟩ := braces_delimited token_delimited _ _ _ _ h
  exact ⟨OSet.ext h1, h2⟩

theorem sources_delimited (p : Char → Bool) : Delimited (sources p) := by
  have : Delimited fun e : U16 × String => pad (numeral 10 e.1 ++ ": ".toList ++ quote p e.2.toList) ++ ",\n".toList := by
    rintro ⟨n, s⟩ ⟨n', s'⟩ x y h
    have pl : ∀ (n : U16) (s : String), '\n' ∉ numeral 10 n ++ ": ".toList ++ quote p s.toList := by
      intro n s
      simp only [List.mem_append, not_or]
      exact ⟨⟨(numeral_plain (by omega) (by omega) _).1, by decide⟩, quote_plain _ _⟩
    dsimp only at h
    rw [pad_plain (pl _ _), pad_plain (pl _ _)] at h
    simp only [List.append_assoc] at h
    obtain ⟨h1, h2⟩ := until_sep (numeral_plain (b := 10) (by omega) (by omega) _).2.1
      (numeral_plain (b := 10) (by omega) (by omega) _).2.1 (List.append_cancel_left h)
    obtain ⟨h3, h4⟩ := quote_delimited p _ _ _ _ (List.append_cancel_left (as := [' ']) h2)
    exact ⟨by rw [Fin.ext (numeral_inj (by omega) (by omega) h1), String.toList_inj.1 h3], List.append_cancel_left h4⟩
  intro m m' x y h
  obtain ⟨h1, h2⟩ := braces_delimited this _ _ _ _ h
  exact ⟨OMap.ext h1, h2⟩

theorem split_closed {A B B' F F' w w' o o' e e' : List Char} (hB : B = ' ' :: B') (hF : F = '.' :: F') (hw : ' ' ∉ w)
    (hw' : ' ' ∉ w') (ho : '.' ∉ o) (ho' : '.' ∉ o') (h : A ++ w ++ B ++ o ++ F ++ e = A ++ w' ++ B ++ o' ++ F ++ e') :
    w = w' ∧ o = o' ∧ e = e' := by
  subst hB hF
  simp only [List.append_assoc, List.cons_append] at h
  obtain ⟨h1, h2⟩ := until_sep hw hw' (List.append_cancel_left h)
  obtain ⟨h3, h4⟩ := until_sep ho ho' (List.append_cancel_left h2)
  exact ⟨h1, h3, List.append_cancel_left h4⟩

theorem split_mismatch {A B B' F G o o' : List Char} {p : Char → Bool} {d d' r r' : OSet AuthToken} {s s' : OMap U16 String}
    (hB : B = ',' :: B') (ho : ',' ∉ o) (ho' : ',' ∉ o')
    (h : A ++ o ++ B ++ tokens d ++ F ++ tokens r ++ G ++ sources p s = A ++ o' ++ B ++ tokens d' ++ F ++ tokens r' ++ G ++ sources p s') :
    o = o' ∧ r = r' ∧ d = d' ∧ s = s' := by
  subst hB
  simp only [List.append_assoc, List.cons_append] at h
  obtain ⟨h1, h2⟩ := until_sep ho ho' (List.append_cancel_left h)
  obtain ⟨h3, h4⟩ := tokens_delimited _ _ _ _ (List.append_cancel_left h2)
  obtain ⟨h5, h6⟩ := tokens_delimited _ _ _ _ (List.append_cancel_left h4)
  obtain ⟨h7, _⟩ := sources_delimited p _ _ [] [] (by simpa using List.append_cancel_left h6)
  exact ⟨h1, h5, h3, h7⟩

theorem join_mismatch {A B B₁ B₂ F F₁ G G₁ L b a x c o d r : List Char} (h1 : B ++ b = B₁ ++ B₂) (h2 : L ++ a ++ F ++ b = x ++ F₁)
    (h3 : L ++ a ++ G ++ b ++ c = x ++ G₁) {K k : List Char} {n q : List Char} (h4 : k ++ a = K) {T : List Char} {col : List Char} :
    A ++ o ++ B ++ (b ++ (T ++ d ++ L) ++ a) ++ F ++ (b ++ (T ++ r ++ L) ++ a) ++ G ++ (b ++ (c ++ (n ++ col ++ q) ++ k) ++ a) =
      A ++ o ++ B₁ ++ B₂ ++ T ++ d ++ x ++ F₁ ++ T ++ r ++ x ++ G₁ ++ n ++ col ++ q ++ K := by
  have h1' : ∀ y, B ++ (b ++ y) = B₁ ++ (B₂ ++ y) := fun y => by rw [← List.append_assoc, h1, List.append_assoc]
  have h2' : ∀ y, L ++ (a ++ (F ++ (b ++ y))) = x ++ (F₁ ++ y) := fun y => by
    rw [← List.append_assoc x, ← h2]; simp only [List.append_assoc]
  have h3' : ∀ y, L ++ (a ++ (G ++ (b ++ (c ++ y)))) = x ++ (G₁ ++ y) := fun y => by
    rw [← List.append_assoc x, ← h3]; simp only [List.append_assoc]
  simp only [List.append_assoc, h1', h2', h3', h4]

section
variable {Seal : Type} [LinearOrder Seal] [RgbSeal Seal] {E : Type}

/-- The error comes from the virtual machine; its text is that of the inner error. -/
def IsVm : VerificationError Seal E → Prop
  | .vm _ => True
  | _ => False

/-- The kinds of errors, in the order of declaration. -/
def kind : VerificationError Seal E → Nat
  | .stream _ => 0
  | .noCodexCommitment => 1
  | .noWitness _ => 2
  | .sealsNotClosed _ _ _ => 3
  | .sealUnknown _ => 4
  | .sealsDefinitionMismatch _ _ _ _ => 5
  | .vm _ => 6

/-- What is assumed of the formats of other crates: they are injective, operation ids contain neither
full stop, comma nor colon, and witness ids no space. -/
structure Plain (D : Displays Seal E) : Prop where
  opid : Function.Injective D.opid
  opidChars : ∀ o, '.' ∉ D.opid o ∧ ',' ∉ D.opid o ∧ ':' ∉ D.opid o
  witnessId : Function.Injective D.witnessId
  witnessIdChars : ∀ w, ' ' ∉ D.witnessId w
  sealError : Function.Injective D.sealError
  stream : Function.Injective D.stream

end
end ErrorText

open ErrorText

section
variable {Seal : Type} [LinearOrder Seal] [RgbSeal Seal] {E : Type}

/-- The texts of errors of different kinds are different, whatever the formats of other crates. -/
theorem C70_kind (D : Displays Seal E) {e e' : VerificationError Seal E} (h : ¬ IsVm e) (h' : ¬ IsVm e')
    (ht : display D e = display D e') : kind e = kind e' := by
  have key : ∀ e : VerificationError Seal E, ¬ IsVm e → (display D e).take 2 =
      (["er", "ge", "no", "si", "un", "se"].map String.toList)[kind e]! := by
    intro e h
    cases e with
    | vm e => exact absurd trivial h
    | _ => rfl
  have := (key e h).symm.trans ((congrArg (List.take 2) ht).trans (key e' h'))
  have lt : ∀ e : VerificationError Seal E, ¬ IsVm e → kind e < 6 := by
    intro e h
    cases e with
    | vm e => exact absurd trivial h
    | _ => simp [kind]
  have inj : ∀ i < 6, ∀ j < 6, (["er", "ge", "no", "si", "un", "se"].map String.toList)[i]! =
      (["er", "ge", "no", "si", "un", "se"].map String.toList)[j]! → i = j := by decide
  exact inj _ (lt e h) _ (lt e' h') this

/-- The text of an error determines the error with all its details. -/
theorem C70_injective (D : Displays Seal E) (hD : Plain D) {e e' : VerificationError Seal E} (h : ¬ IsVm e) (h' : ¬ IsVm e')
    (ht : display D e = display D e') : e = e' := by
  have hk := C70_kind D h h' ht
  cases e with
  | stream e =>
    cases e' <;> first | (exfalso; revert hk; simp [kind]; done) | skip
    rw [hD.stream (List.append_cancel_left ht)]
  | noCodexCommitment =>
    cases e' <;> first | (exfalso; revert hk; simp [kind]; done) | skip
    rfl
  | noWitness o =>
    cases e' <;> first | (exfalso; revert hk; simp [kind]; done) | skip
    rw [hD.opid (List.append_cancel_left (List.append_cancel_right ht))]
  | sealsNotClosed w o e =>
    cases e' <;> first | (exfalso; revert hk; simp [kind]; done) | skip
    have s1 : " for operation ".toList = ' ' :: "for operation ".toList := by decide
    have s2 : ".\nDetails: ".toList = '.' :: "\nDetails: ".toList := by decide
    obtain ⟨h1, h2, h3⟩ := split_closed s1 s2 (hD.witnessIdChars _) (hD.witnessIdChars _) (hD.opidChars _).1 (hD.opidChars _).1 ht
    rw [hD.witnessId h1, hD.opid h2, hD.sealError h3]
  | sealUnknown a =>
    cases e' <;> first | (exfalso; revert hk; simp [kind]; done) | skip
    rename_i a'
    have ht := List.append_cancel_left (List.append_cancel_right ht)
    have s1 : ":".toList = [':'] := by decide
    rw [cellAddr, cellAddr, s1] at ht
    simp only [List.append_assoc, List.cons_append, List.nil_append] at ht
    obtain ⟨h1, h2⟩ := until_sep (hD.opidChars _).2.2 (hD.opidChars _).2.2 ht
    have e1 := hD.opid h1
    have e2 := Fin.ext (numeral_inj (by omega) (by omega) h2)
    cases a
    cases a'
    simp only at e1 e2
    rw [e1, e2]
  | sealsDefinitionMismatch o r d s =>
    cases e' <;> first | (exfalso; revert hk; simp [kind]; done) | skip
    have s1 : ", do match the assignments in the operation.\nActual operation seals from the assignments: ".toList =
        ',' :: " do match the assignments in the operation.\nActual operation seals from the assignments: ".toList := by
      decide +kernel
    obtain ⟨h1, h2, h3, h4⟩ := split_mismatch s1 (hD.opidChars _).2.1 (hD.opidChars _).2.1 ht
    rw [hD.opid h1, h2, h3, h4]
  | vm e => exact absurd trivial h

/-- The layout of the longest message, for one seal each, with the tokens in hexadecimal; this is what
the test `invalid_seals` (verify.rs:531-549) expects. -/
theorem C70_layout (D : Displays Seal E) (o : Opid) (t t' : AuthToken) (n : U16) (s : String) :
    display D (.sealsDefinitionMismatch o (.collect [t]) (.collect [t']) (.collect [(n, s)])) =
      "seals, reported to be defined by the operation ".toList ++ D.opid o ++
      ", do match the assignments in the operation.\n".toList ++
      "Actual operation seals from the assignments: {\n".toList ++
      "    AuthToken(\n        fe256(\n            0x".toList ++ hex 64 t'.fe ++ ",\n        ),\n    ),\n}\n".toList ++
      "Reported seals: {\n".toList ++
      "    AuthToken(\n        fe256(\n            0x".toList ++ hex 64 t.fe ++ ",\n        ),\n    ),\n}\n".toList ++
      "Sources for the reported seals: {\n    ".toList ++ numeral 10 n ++ ": ".toList ++ quote D.printable s.toList ++
      ",\n}".toList := by
  have e1 : ∀ t : AuthToken, (OSet.collect [t]).elems = [t] := fun t => rfl
  have e2 : (OMap.collect [(n, s)]).entries = [(n, s)] := rfl
  have pl : '\n' ∉ numeral 10 n ++ ": ".toList ++ quote D.printable s.toList := by
    simp only [List.mem_append, not_or]
    exact ⟨⟨(numeral_plain (by omega) (by omega) _).1, by decide⟩, quote_plain _ _⟩
  have hb : ∀ e : List Char, braces [e] = "{\n".toList ++ (pad e ++ ",\n".toList) ++ "}".toList := by
    intro e; simp [braces]
  have s1 : ", do match the assignments in the operation.\nActual operation seals from the assignments: ".toList ++ "{\n".toList =
      ", do match the assignments in the operation.\n".toList ++ "Actual operation seals from the assignments: {\n".toList := by
    decide +kernel
  have s2 : ",\n        ),\n    ),\n".toList ++ "}".toList ++ "\nReported seals: ".toList ++ "{\n".toList =
      ",\n        ),\n    ),\n}\n".toList ++ "Reported seals: {\n".toList := by decide +kernel
  have s3 : ",\n        ),\n    ),\n".toList ++ "}".toList ++ "\nSources for the reported seals: ".toList ++ "{\n".toList ++ "    ".toList =
      ",\n        ),\n    ),\n}\n".toList ++ "Sources for the reported seals: {\n    ".toList := by decide +kernel
  have s4 : ",\n".toList ++ "}".toList = ",\n}".toList := by decide +kernel
  have ht : ∀ t : AuthToken, tokens (.collect [t]) = "{\n".toList ++
      ("    AuthToken(\n        fe256(\n            0x".toList ++ hex 64 t.fe ++ ",\n        ),\n    ),\n".toList) ++ "}".toList := by
    intro t
    rw [tokens, e1, List.map_singleton, hb, token_layout]
  have hs : sources D.printable (.collect [(n, s)]) = "{\n".toList ++
      ("    ".toList ++ (numeral 10 n ++ ": ".toList ++ quote D.printable s.toList) ++ ",\n".toList) ++ "}".toList := by
    rw [sources, e2, List.map_singleton, hb, pad_plain pl]
  show _ ++ D.opid o ++ _ ++ tokens _ ++ _ ++ tokens _ ++ _ ++ sources _ _ = _
  rw [ht, ht, hs]
  exact join_mismatch s1 s2 s3 s4

/-- `Debug` prints the same text, so that is also what `unwrap` reports. -/
theorem C70_debug (D : Displays Seal E) (e : VerificationError Seal E) : debug D e = display D e := rfl

end

namespace ErrorText
open Demo in
/-- Formats for the example seals: numbers for ids, strings for errors. -/
def demoDisplays : Displays Nat String where
  opid o := numeral 16 o.bytes
  witnessId w := numeral 10 w
  sealError e := e.toList
  stream e := e.toList
  callError _ := "script failure".toList
  printable c := 32 ≤ c.toNat ∧ c.toNat < 127
end ErrorText

open Demo in
example : Plain demoDisplays ∧ ¬ IsVm (VerificationError.noWitness (Seal := Nat) (StreamError := String) ⟨5⟩) ∧
    ¬ IsVm (VerificationError.sealUnknown (Seal := Nat) (StreamError := String) ⟨⟨5⟩, 3⟩) := by
  refine ⟨⟨?_, ?_, ?_, ?_, fun a b h => String.toList_inj.1 h, fun a b h => String.toList_inj.1 h⟩, id, id⟩
  · rintro ⟨a⟩ ⟨b⟩ h
    exact congrArg _ (Fin.ext (numeral_inj (by omega) (by omega) h))
  · intro o
    have : ∀ k < 16, Nat.digitChar k ≠ '.' ∧ Nat.digitChar k ≠ ',' ∧ Nat.digitChar k ≠ ':' := by decide
    refine ⟨?_, ?_, ?_⟩ <;> intro h <;> obtain ⟨k, hk, e⟩ := mem_numeral (by omega) (by omega) h
    · exact (this k hk).1 e.symm
    · exact (this k hk).2.1 e.symm
    · exact (this k hk).2.2 e.symm
  · intro a b h
    exact numeral_inj (by omega) (by omega) h
  · intro w h
    have : ∀ k < 16, Nat.digitChar k ≠ ' ' := by decide
    obtain ⟨k, hk, e⟩ := mem_numeral (by omega) (by omega) h
    exact this k hk e.symm

open Demo in
example : display demoDisplays (.sealUnknown ⟨⟨165⟩, 12⟩) = "unknown seal definition for cell address a5:12.".toList := by
  decide +kernel

end Rgb
