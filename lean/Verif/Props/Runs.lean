import Mathlib.Data.Nat.Find
import Mathlib.Data.List.Induction
import Verif.Demo

set_option linter.unusedSectionVars false

/-! # C21 - C25, C28 - C32: streams, errors and queries -/

namespace Rgb
open Spec

/-! ## C21 -/

section
variable {Seal : Type} [LinearOrder Seal] [RgbSeal Seal] [OpHash]
variable {C E : Type} [ContractApi Seal C]
variable {R : Type} [ReadOperation Seal R]

/-- A prefix of an accepted consignment is accepted, and its callbacks are a prefix of the callbacks
of the whole. -/
theorem C21_prefix {R' : Type} [ReadOperation Seal R'] {c : C} {r : R} {r' : R'} {xs ys : List (OperationSeals Seal)} {o}
    (h : Accepted c r (xs ++ ys) o) (hd : Delivers r' xs) :
    ∃ o', Accepted c r' xs o' ∧ o'.world.calls.filter IsCallback <+: o.world.calls.filter IsCallback := by
  obtain ⟨o', h1, h2, h3⟩ := evaluate_of_delivers hd h.valid.prefix
  refine ⟨o', ⟨h1, h2, hd⟩, ?_⟩
  rw [h3.callbacks, h.shape.callbacks,
    callbacksUpTo_congr fun k hk => getElem?_append_lt (ys := ys) (Nat.le_refl _) k hk]
  have hl : xs.length ≤ (xs ++ ys).length := by simp
  generalize xs ++ ys = l at *
  have : ∀ n m : Nat, callbacksUpTo (ContractApi.contractId Seal c) c l n <+:
      callbacksUpTo (ContractApi.contractId Seal c) c l (n + m) := by
    intro n m
    induction m with
    | zero => exact List.prefix_refl _
    | succ m ih => exact ih.trans (List.prefix_append _ _)
  obtain ⟨m, hm⟩ := Nat.exists_eq_add_of_le hl
  rw [hm]; exact this _ _

end

open Demo in
example : (∃ o, Accepted ledger (Tape.mk ([genesis, transfer1] ++ [transfer2]) none) ([genesis, transfer1] ++ [transfer2]) o) ∧
    Delivers (Seal := Nat) (Tape.mk [genesis, transfer1] none) [genesis, transfer1] := ⟨story_run, tape_delivers _⟩

/-! ## C22 -/

section
variable {Seal : Type} [LinearOrder Seal] [RgbSeal Seal] [OpHash]
variable {C E : Type} [ContractApi Seal C]
variable {R : Type} [ReadOperation Seal R]

/-- A run that stops with an error while the stream goes on at least to block `b`, without having read
past it, gives the same error and the same calls and contract on every reader starting alike. -/
theorem C22_rejection_final {R' : Type} [ReadOperation Seal R'] {c : C} {r : R} {r' : R'}
    {blocks : List (OperationSeals Seal)} (hr : StartsWith r blocks) (hr' : StartsWith r' blocks)
    {o} (h : evaluate (Seal := Seal) c r = some o) (hp : polls o.world.calls ≤ blocks.length) :
    ∃ (e : VerificationError Seal Empty) (o' : _), o.result = .error (e.mapStream Empty.elim) ∧
      evaluate (Seal := Seal) c r' = some o' ∧ o'.result = .error (e.mapStream Empty.elim) ∧ o'.world = o.world := by
  obtain ⟨bs, hs⟩ := run_shape h
  have hpl := hs.polls
  have hlt : bs.length < blocks.length := by omega
  obtain ⟨segs, tail, _, _, h3⟩ := hs.stop
  obtain ⟨r₂, hrd⟩ := hr
  have nostop : ∀ {r₁ x}, Reads r bs r₁ → ReadOperation.readOperation (Seal := Seal) r₁ = (x, o.reader) →
      (∀ b, x ≠ .ok (some b)) → False := by
    intro r₁ x h4 h5 hx
    rcases h4.det hrd with ⟨zs, e, hz⟩ | ⟨zs, e, _⟩
    · cases hz with
      | nil => rw [e] at hlt; simp at hlt
      | cons hz _ => rw [h5] at hz; simp only [Prod.mk.injEq] at hz; exact hx _ hz.1
    · rw [e] at hlt; simp at hlt
      omega
  rcases h3 with ⟨_, _, r₁, h4, h5⟩ | ⟨_, _, _, r₁, h4, h5⟩ | ⟨b, e, he, h4, hrej⟩
  · exact (nostop h4 h5 (by simp)).elim
  · exact (nostop h4 h5 (by simp)).elim
  · have hst : StartsWith r' (bs ++ [b]) := by
      obtain ⟨r₃, hrd'⟩ := hr'
      rcases h4.det hrd with ⟨zs, e1, _⟩ | ⟨zs, e1, _⟩
      · rw [e1] at hrd'
        obtain ⟨r₄, h6, _⟩ := hrd'.split
        exact ⟨r₄, h6⟩
      · have hl := congrArg List.length e1
        simp only [List.length_append, List.length_cons, List.length_nil] at hl
        have : zs = [] := List.length_eq_zero_iff.1 (by omega)
        subst this
        rw [List.append_nil] at e1
        exact ⟨r₃, e1 ▸ hrd'⟩
    obtain ⟨e₀, rfl, hrej₀⟩ := hrej.empty
    have hrej' := hrej₀.map (Empty.elim : Empty → ReadOperation.Error Seal R')
    obtain ⟨o', k1, k2, k3, k4⟩ := evaluate_of_rejection hst hs.valid hrej'
    exact ⟨e₀, o', he, k1, k2, k4.calls_eq_reject hs k2 he k3 h4 hrej' hrej⟩

/-- A run that ends with an error of another kind than a failing reader has read the stream up to some
block and no further, and gives the same error and the same calls and contract on every reader that
delivers the same blocks up to that one, whatever it does afterwards. -/
theorem C22_rejected_block {c : C} {r : R} {o} (h : evaluate (Seal := Seal) c r = some o)
    {e : VerificationError Seal (ReadOperation.Error Seal R)} (he : o.result = .error e) (hns : ∀ x, e ≠ .stream x) :
    ∃ (blocks : List (OperationSeals Seal)) (e₀ : VerificationError Seal Empty),
      StartsWith r blocks ∧ polls o.world.calls = blocks.length ∧ blocks ≠ [] ∧ e = e₀.mapStream Empty.elim ∧
      ∀ (R' : Type) [ReadOperation Seal R'] (r' : R'), StartsWith r' blocks →
        ∃ o', evaluate (Seal := Seal) c r' = some o' ∧ o'.result = .error (e₀.mapStream Empty.elim) ∧
          o'.world = o.world := by
  obtain ⟨bs, hs⟩ := run_shape h
  have hpl := hs.polls
  obtain ⟨segs, tail, _, _, h3⟩ := hs.stop
  rcases h3 with ⟨h0, _⟩ | ⟨x, h0, _⟩ | ⟨b, e', h0, h4, hrej⟩
  · rw [he] at h0; cases h0
  · rw [he] at h0; cases h0; exact absurd rfl (hns x)
  · rw [he] at h0; cases h0
    obtain ⟨e₀, rfl, hrej₀⟩ := hrej.empty
    refine ⟨bs ++ [b], e₀, ⟨_, h4⟩, by simp [hpl], by simp, rfl, ?_⟩
    intro R' _ r' hr'
    have hrej' := hrej₀.map (Empty.elim : Empty → ReadOperation.Error Seal R')
    obtain ⟨o', k1, k2, k3, k4⟩ := evaluate_of_rejection hr' hs.valid hrej'
    exact ⟨o', k1, k2, k4.calls_eq_reject hs k2 he k3 h4 hrej' hrej⟩

end

open Demo in
example : ∃ (o : _) (e : VerificationError Nat String), evaluate (Seal := Nat) ledger (Tape.mk ([genesis, transfer1] ++ [doubleSpend] ++ [transfer2]) none) = some o ∧
    o.result = .error e ∧ ∀ x, e ≠ .stream x := by
  obtain ⟨o, h1, h2⟩ := rejected_of (c := ledger) (bs := [genesis, transfer1]) (b := doubleSpend)
    (e := .sealUnknown (at_ 100 0)) rfl [transfer2] none
  exact ⟨o, _, h1, h2, by simp⟩

open Demo in
example : StartsWith (Seal := Nat) (Tape.mk ([genesis, transfer1, doubleSpend] ++ [transfer2]) none) [genesis, transfer1, doubleSpend] ∧
    StartsWith (Seal := Nat) (Tape.mk ([genesis, transfer1, doubleSpend] ++ []) (some "disk")) [genesis, transfer1, doubleSpend] ∧
    ∃ o, evaluate (Seal := Nat) ledger (Tape.mk ([genesis, transfer1, doubleSpend] ++ [transfer2]) none) = some o ∧
      polls o.world.calls ≤ [genesis, transfer1, doubleSpend].length := by
  refine ⟨tape_startsWith _ _ _, tape_startsWith _ _ _, ?_⟩
  obtain ⟨hv, l, hr⟩ := rejection_of (c := ledger) (bs := [genesis, transfer1]) (b := doubleSpend) (e := .sealUnknown (at_ 100 0)) rfl
  obtain ⟨o, h1, _, _, h2⟩ := evaluate_of_rejection (tape_startsWith ([genesis, transfer1] ++ [doubleSpend]) [transfer2] none) hv hr
  exact ⟨o, h1, Nat.le_of_eq h2.polls⟩

/-! ## C23 -/

section
variable {Seal : Type} [LinearOrder Seal] [RgbSeal Seal] [OpHash]
variable {C E : Type} [ContractApi Seal C]
variable {R : Type} [ReadOperation Seal R]

/-- A failing reader after acceptable blocks: its error is passed on, and the effects of the blocks
stay. -/
theorem C23_reader_failure {R' : Type} [ReadOperation Seal R'] {c : C} {r : R} {r' : R'} {blocks : List (OperationSeals Seal)}
    {e : ReadOperation.Error Seal R} {o'} (hf : FailsAfter r blocks e) (ha : Accepted c r' blocks o') :
    ∃ o, evaluate (Seal := Seal) c r = some o ∧ o.result = .error (.stream e) ∧ o.world = o'.world := by
  obtain ⟨o, h1, h2, h3⟩ := evaluate_of_fails hf ha.valid
  exact ⟨o, h1, h2, h3.calls_eq ha.shape (.inr ⟨e, h2⟩) (.inl ha.ok)⟩

/-- Conversely a stream error is the reader's error after acceptable blocks. -/
theorem C23_only_reader {c : C} {r : R} {o} {e : ReadOperation.Error Seal R} (h : evaluate (Seal := Seal) c r = some o)
    (he : o.result = .error (.stream e)) : ∃ blocks, FailsAfter r blocks e ∧ ValidConsignment c blocks := by
  obtain ⟨bs, hs⟩ := run_shape h
  obtain ⟨segs, tail, _, _, h3⟩ := hs.stop
  rcases h3 with ⟨h0, _⟩ | ⟨e', h0, _, r₁, h4, h5⟩ | ⟨b, e', h0, h4, hrej⟩
  · rw [he] at h0; simp at h0
  · rw [he] at h0
    simp only [Except.error.injEq, VerificationError.stream.injEq] at h0
    subst h0
    exact ⟨bs, ⟨r₁, _, h4, h5⟩, hs.valid⟩
  · rw [he] at h0
    simp only [Except.error.injEq] at h0
    subst h0
    exact absurd hrej Rejection.not_stream

end

open Demo in
example : FailsAfter (Seal := Nat) (Tape.mk story (some "disk")) story "disk" ∧
    ∃ o', Accepted ledger (Tape.mk story none) story o' := ⟨tape_fails _ _, story_run⟩

/-! ## C24 -/

section
variable {Seal : Type} [LinearOrder Seal] [RgbSeal Seal] [OpHash]
variable {C E : Type} [ContractApi Seal C]
variable {R : Type} [ReadOperation Seal R]

theorem Spec.Reads.readAt {r r' : R} {blocks : List (OperationSeals Seal)} (h : Reads r blocks r') :
    (∀ n b, blocks[n]? = some b → Spec.readAt Seal r n = .ok (some b)) ∧ readerAfter Seal r blocks.length = r' ∧
    ∀ k, Spec.readAt Seal r (blocks.length + k) = Spec.readAt Seal r' k := by
  induction h with
  | nil => exact ⟨by simp, rfl, by simp⟩
  | cons hr _ ih =>
    obtain ⟨h1, h2, h3⟩ := ih
    refine ⟨?_, ?_, ?_⟩
    · intro n b hb
      cases n with
      | zero => simp only [Spec.readAt, hr]; simpa using hb
      | succ n => simp only [Spec.readAt, hr]; exact h1 n b (by simpa using hb)
    · simp only [List.length_cons, readerAfter, hr]; exact h2
    · intro k
      rw [List.length_cons, Nat.add_right_comm, Spec.readAt, hr]
      exact h3 k

theorem readerAfter_succ (r : R) (n : Nat) :
    readerAfter Seal r (n + 1) = (ReadOperation.readOperation (Seal := Seal) (readerAfter Seal r n)).2 := by
  induction n generalizing r with
  | zero => rfl
  | succ n ih => rw [readerAfter, ih]; rfl

/-- The reader left behind is the reader after exactly the recorded number of polls, of which all but
the last delivered a block: it is never polled again after reporting the end or an error. -/
theorem C24_polls {c : C} {r : R} {o} (h : evaluate (Seal := Seal) c r = some o) :
    ∃ n, polls o.world.calls = n + 1 ∧ o.reader = readerAfter Seal r (n + 1) ∧
      (∀ k < n, ∃ b, readAt Seal r k = .ok (some b)) ∧
      (o.result = .ok () ↔ readAt Seal r n = .ok none) ∧
      (∀ e, o.result = .error (.stream e) ↔ readAt Seal r n = .error e) := by
  obtain ⟨bs, hs⟩ := run_shape h
  refine ⟨bs.length, hs.polls, ?_⟩
  obtain ⟨segs, tail, _, _, h3⟩ := hs.stop
  have hall : ∀ {r' : R}, Reads r bs r' → (∀ k < bs.length, ∃ b, readAt Seal r k = .ok (some b)) := by
    intro r' hr k hk
    exact ⟨bs[k], hr.readAt.1 k _ (by simp)⟩
  rcases h3 with ⟨h0, _, r₁, h4, h5⟩ | ⟨e', h0, _, r₁, h4, h5⟩ | ⟨b, e', h0, h4, hrej⟩
  · have hlast : readAt Seal r bs.length = .ok none := by
      have := h4.readAt.2.2 0
      rw [Nat.add_zero] at this
      rw [this, readAt, h5]
    refine ⟨by rw [readerAfter_succ, h4.readAt.2.1, h5], hall h4, ?_, ?_⟩ <;> simp [h0, hlast]
  · have hlast : readAt Seal r bs.length = .error e' := by
      have := h4.readAt.2.2 0
      rw [Nat.add_zero] at this
      rw [this, readAt, h5]
    refine ⟨by rw [readerAfter_succ, h4.readAt.2.1, h5], hall h4, ?_, ?_⟩ <;> simp [h0, hlast]
  · have hlast : readAt Seal r bs.length = .ok (some b) := h4.readAt.1 _ _ (by simp)
    obtain ⟨r₁, h6, _⟩ := h4.split
    refine ⟨?_, hall h6, ?_, ?_⟩
    · have := h4.readAt.2.1
      rw [← this]; simp
    · simp [h0, hlast]
    · intro e
      simp only [h0, hlast, Except.error.injEq, reduceCtorEq, iff_false]
      rintro rfl
      exact absurd hrej Rejection.not_stream

theorem reads_of_readAt {R' : Type} [ReadOperation Seal R'] {r : R} {r₁ : R} {r' : R'} {blocks : List (OperationSeals Seal)}
    (h : Reads r blocks r₁) (hr' : ∀ n b, readAt Seal r n = .ok (some b) → readAt Seal r' n = .ok (some b)) :
    ∃ r₁', Reads r' blocks r₁' ∧ ∀ k, readAt Seal r' (blocks.length + k) = readAt Seal r₁' k := by
  induction h generalizing r' with
  | nil r => exact ⟨r', .nil r', by simp⟩
  | @cons r ra rb b bs hr h ih =>
    have h0 := hr' 0 b (by simp [readAt, hr])
    rcases hq : ReadOperation.readOperation (Seal := Seal) r' with ⟨x, r''⟩
    have hx : x = .ok (some b) := by simpa [readAt, hq] using h0
    subst hx
    obtain ⟨r₁', k1, k2⟩ := ih (r' := r'') (by
      intro n b' hb'
      have := hr' (n + 1) b' (by simpa [readAt, hr] using hb')
      simpa [readAt, hq] using this)
    refine ⟨r₁', .cons hq k1, ?_⟩
    intro k
    rw [List.length_cons, Nat.add_right_comm, readAt, hq]
    exact k2 k

/-- The outcome depends on the reader only through the sequence of its results. -/
theorem C24_reader_extensional {R' : Type} [ReadOperation Seal R'] {c : C} {r : R} {r' : R'}
    (f : ReadOperation.Error Seal R → ReadOperation.Error Seal R')
    (hf : ∀ n, readAt Seal r' n = (readAt Seal r n).mapError f) {o} (h : evaluate (Seal := Seal) c r = some o) :
    ∃ o', evaluate (Seal := Seal) c r' = some o' ∧ o'.result = o.result.mapError (·.mapStream f) ∧ o'.world = o.world := by
  have hf' : ∀ n b, readAt Seal r n = .ok (some b) → readAt Seal r' n = .ok (some b) := by
    intro n b hb; rw [hf, hb]; rfl
  obtain ⟨bs, hs⟩ := run_shape h
  obtain ⟨segs, tail, _, _, h3⟩ := hs.stop
  rcases h3 with ⟨h0, _, r₁, h4, h5⟩ | ⟨e, h0, _, r₁, h4, h5⟩ | ⟨b, e, h0, h4, hrej⟩
  · obtain ⟨r₁', h6, h7⟩ := reads_of_readAt h4 hf'
    have hlast : readAt Seal r₁' 0 = .ok none := by
      have := h4.readAt.2.2 0
      rw [← h7 0, hf, this, readAt, h5]; rfl
    have hd : Delivers r' bs := ⟨r₁', _, h6, Prod.ext hlast rfl⟩
    obtain ⟨o', k1, k2, k3⟩ := evaluate_of_delivers (c := c) hd hs.valid
    exact ⟨o', k1, by rw [k2, h0]; rfl, k3.calls_eq hs (.inl k2) (.inl h0)⟩
  · obtain ⟨r₁', h6, h7⟩ := reads_of_readAt h4 hf'
    have hlast : readAt Seal r₁' 0 = .error (f e) := by
      have := h4.readAt.2.2 0
      rw [← h7 0, hf, this, readAt, h5]; rfl
    have hd : FailsAfter r' bs (f e) := ⟨r₁', _, h6, Prod.ext hlast rfl⟩
    obtain ⟨o', k1, k2, k3⟩ := evaluate_of_fails (c := c) hd hs.valid
    exact ⟨o', k1, by rw [k2, h0]; rfl, k3.calls_eq hs (.inr ⟨_, k2⟩) (.inr ⟨_, h0⟩)⟩
  · obtain ⟨r₁', h6, _⟩ := reads_of_readAt h4 hf'
    obtain ⟨o', k1, k2, k3, k4⟩ := evaluate_of_rejection ⟨r₁', h6⟩ hs.valid (hrej.map f)
    exact ⟨o', k1, by rw [k2, h0]; rfl, k4.calls_eq_reject hs k2 h0 k3 h4 (hrej.map f) hrej⟩

end

namespace Demo
/-- Another implementation of a reader, with numeric errors: it keeps all bundles and a position. -/
structure Cursor where
  items : List Block
  pos : Nat

scoped instance : ReadOperation Nat Cursor where
  Error := Nat
  readOperation t := match t.items[t.pos]? with
    | some b => (.ok (some b), { t with pos := t.pos + 1 })
    | none => (.ok none, t)

theorem cursor_readAt (l : List Block) (k n : Nat) : readAt Nat (Cursor.mk l k) n = .ok l[k + n]? := by
  induction n generalizing k with
  | zero =>
    simp only [readAt, ReadOperation.readOperation, Nat.add_zero]
    split <;> simp_all
  | succ n ih =>
    simp only [readAt, ReadOperation.readOperation]
    split
    · rw [ih]
      congr 2
      omega
    · rename_i hn
      rw [ih, List.getElem?_eq_none (by have := List.getElem?_eq_none_iff.1 hn; omega),
        List.getElem?_eq_none (by have := List.getElem?_eq_none_iff.1 hn; omega)]

theorem tape_readAt (l : List Block) (n : Nat) : readAt Nat (Tape.mk l none) n = .ok l[n]? := by
  induction n generalizing l with
  | zero => cases l <;> rfl
  | succ n ih =>
    cases l with
    | nil => exact ih []
    | cons b t => exact ih t

end Demo

open Demo in
example : ∀ n, readAt Nat (Cursor.mk story 0) n = (readAt Nat (Tape.mk story none) n).mapError String.length := by
  intro n
  rw [cursor_readAt, tape_readAt, Nat.zero_add]; rfl

/-! ## C25 -/

section
variable {Seal : Type} [LinearOrder Seal] [RgbSeal Seal] [OpHash]
variable {C E : Type} [ContractApi Seal C]
variable {R : Type} [ReadOperation Seal R]

/-- `evaluate` terminates on readers that end or fail. -/
theorem C25_terminates {c : C} {r : R} {blocks : List (OperationSeals Seal)}
    (h : Delivers r blocks ∨ ∃ e, FailsAfter r blocks e) : ∃ o, evaluate (Seal := Seal) c r = some o := by
  by_cases hv : ValidConsignment c blocks
  · rcases h with h | ⟨e, h⟩
    · obtain ⟨o, h1, _⟩ := evaluate_of_delivers h hv
      exact ⟨o, h1⟩
    · obtain ⟨o, h1, _⟩ := evaluate_of_fails h hv
      exact ⟨o, h1⟩
  · have hst : StartsWith r blocks := by
      rcases h with ⟨r₁, _, h, _⟩ | ⟨_, r₁, _, h, _⟩ <;> exact ⟨r₁, h⟩
    obtain ⟨xs, b, ys, rfl, h1, h2⟩ := first_invalid hv
    rcases valid_or_rejected (E := ReadOperation.Error Seal R) h1 b with h3 | ⟨e, l, hrej⟩
    · exact absurd h3 h2
    · have hst' : StartsWith r (xs ++ [b]) := by
        obtain ⟨r₁, hst⟩ := hst
        rw [List.append_cons] at hst
        obtain ⟨r₂, k, _⟩ := hst.split
        exact ⟨r₂, k⟩
      obtain ⟨o, k1, _⟩ := evaluate_of_rejection hst' h1 hrej
      exact ⟨o, k1⟩

/-- On an endless reader it terminates exactly if some delivered block is not acceptable after the
blocks before it. -/
theorem C25_endless {c : C} {r : R} (hr : ∀ n, ∃ b, readAt Seal r n = .ok (some b)) :
    (∃ o, evaluate (Seal := Seal) c r = some o) ↔
      ∃ (blocks : List (OperationSeals Seal)) (b : _), StartsWith r (blocks ++ [b]) ∧ ValidConsignment c blocks ∧ ¬ ValidBlock c blocks blocks.length b := by
  constructor
  · rintro ⟨o, h⟩
    obtain ⟨bs, hs⟩ := run_shape h
    obtain ⟨segs, tail, _, _, h3⟩ := hs.stop
    obtain ⟨b', hb'⟩ := hr bs.length
    rcases h3 with ⟨h0, _, r₁, h4, h5⟩ | ⟨e, h0, _, r₁, h4, h5⟩ | ⟨b, e, h0, h4, hrej⟩
    · have := h4.readAt.2.2 0
      rw [Nat.add_zero, hb', readAt, h5] at this
      simp at this
    · have := h4.readAt.2.2 0
      rw [Nat.add_zero, hb', readAt, h5] at this
      simp at this
    · exact ⟨bs, b, ⟨_, h4⟩, hs.valid, not_valid_of_rejected hs.valid hrej⟩
  · rintro ⟨blocks, b, h1, h2, h3⟩
    rcases valid_or_rejected (E := ReadOperation.Error Seal R) h2 b with h4 | ⟨e, l, hrej⟩
    · exact absurd h4 h3
    · obtain ⟨o, k1, _⟩ := evaluate_of_rejection h1 h2 hrej
      exact ⟨o, k1⟩

/-- Every reader ends, fails or is endless. -/
theorem C25_cases (r : R) :
    (∃ blocks, Delivers (Seal := Seal) r blocks) ∨ (∃ blocks e, FailsAfter (Seal := Seal) r blocks e) ∨
      ∀ n, ∃ b, readAt Seal r n = .ok (some b) := by
  by_cases hall : ∀ n, ∃ b, readAt Seal r n = .ok (some b)
  · exact .inr (.inr hall)
  · have hex : ∃ n, ¬ ∃ b, readAt Seal r n = .ok (some b) := Classical.not_forall.1 hall
    obtain ⟨n, hn, hmin⟩ : ∃ n, (¬ ∃ b, readAt Seal r n = .ok (some b)) ∧
        ∀ k < n, ∃ b, readAt Seal r k = .ok (some b) := by
      classical
      refine ⟨Nat.find hex, Nat.find_spec hex, fun k hk => ?_⟩
      have := Nat.find_min hex hk
      exact Classical.not_not.1 this
    have : ∀ m ≤ n, ∃ bs r₁, bs.length = m ∧ Reads (Seal := Seal) r bs r₁ := by
      intro m hm
      induction m with
      | zero => exact ⟨[], r, rfl, .nil r⟩
      | succ m ih =>
        obtain ⟨bs, r₁, h1, h2⟩ := ih (by omega)
        obtain ⟨b, hb⟩ := hmin m (by omega)
        have h3 := h2.readAt.2.2 0
        rw [Nat.add_zero, h1, hb] at h3
        refine ⟨bs ++ [b], _, by simp [h1], h2.append (.cons (Prod.ext h3.symm rfl) (.nil _))⟩
    obtain ⟨bs, r₁, h1, h2⟩ := this n (Nat.le_refl _)
    have h3 := h2.readAt.2.2 0
    rw [Nat.add_zero, h1] at h3
    rcases hq : ReadOperation.readOperation (Seal := Seal) r₁ with ⟨_ | _ | b, r₂⟩
    · exact .inr (.inl ⟨bs, _, r₁, r₂, h2, hq⟩)
    · exact .inl ⟨bs, r₁, r₂, h2, hq⟩
    · exact absurd ⟨b, by rw [h3, readAt, hq]⟩ hn

end

namespace Demo
/-- An endless reader: genesis, and then the same bundle forever. -/
structure Loop where
  first : Bool
  body : Block

scoped instance : ReadOperation Nat Loop where
  Error := String
  readOperation t := if t.first then (.ok (some genesis), { t with first := false }) else (.ok (some t.body), t)

theorem loop_endless (body : Block) (f : Bool) : ∀ n, ∃ b, readAt Nat (Loop.mk f body) n = .ok (some b) := by
  intro n
  induction n generalizing f with
  | zero => cases f <;> exact ⟨_, rfl⟩
  | succ n ih => cases f <;> exact ih false
end Demo

open Demo in
example : (∀ n, ∃ b, readAt Nat (Loop.mk true transfer1) n = .ok (some b)) ∧
    ∃ (blocks : List Block) (b : Block), StartsWith (Loop.mk true transfer1) (blocks ++ [b]) ∧ ValidConsignment ledger blocks ∧
      ¬ ValidBlock ledger blocks blocks.length b := by
  refine ⟨loop_endless _ _, [genesis, transfer1], transfer1, ⟨_, .cons rfl (.cons rfl (.cons rfl (.nil _)))⟩, ?_⟩
  obtain ⟨hv, l, hr⟩ := rejection_of (c := ledger) (bs := [genesis, transfer1]) (b := transfer1) (e := .sealUnknown (at_ 100 0)) rfl
  exact ⟨hv, not_valid_of_rejected hv hr⟩

/-! ## C28 -/

section
variable {Seal : Type} [LinearOrder Seal] [RgbSeal Seal] [OpHash]
variable {C E : Type} [ContractApi Seal C]
variable {R : Type} [ReadOperation Seal R]

/-- Acceptance is exactly declarative validity of the delivered consignment. -/
theorem C28_accepted_iff_valid {c : C} {r : R} :
    (∃ o, evaluate (Seal := Seal) c r = some o ∧ o.result = .ok ()) ↔
      ∃ blocks : List (OperationSeals Seal), Delivers r blocks ∧ ∀ i b, blocks[i]? = some b → ValidBlock c blocks i b := by
  constructor
  · rintro ⟨o, h, hok⟩
    obtain ⟨bs, hs⟩ := run_shape h
    obtain ⟨segs, tail, _, _, h3⟩ := hs.stop
    rcases h3 with ⟨h0, _, r₁, h4, h5⟩ | ⟨e, h0, _⟩ | ⟨b, e, h0, _⟩
    · exact ⟨bs, ⟨r₁, _, h4, h5⟩, hs.valid⟩
    · rw [hok] at h0; simp at h0
    · rw [hok] at h0; simp at h0
  · rintro ⟨blocks, h1, h2⟩
    obtain ⟨o, k1, k2, _⟩ := evaluate_of_delivers h1 h2
    exact ⟨o, k1, k2⟩

end

open Demo in
example : ∃ blocks, Delivers (Seal := Nat) (Tape.mk story none) blocks ∧ blocks.length = 3 ∧
    ∀ i b, blocks[i]? = some b → ValidBlock ledger blocks i b := ⟨story, tape_delivers _, rfl, story_valid⟩

/-! ## C29 -/

section
variable {Seal : Type} [LinearOrder Seal] [RgbSeal Seal] [OpHash]
variable {C E : Type} [ContractApi Seal C]
variable {R : Type} [ReadOperation Seal R]

/-- The errors other than reader failures: exactly those due for the first unacceptable block. -/
theorem C29_error_iff {c : C} {r : R} {e : VerificationError Seal (ReadOperation.Error Seal R)} (he : ∀ s, e ≠ .stream s) :
    (∃ o, evaluate (Seal := Seal) c r = some o ∧ o.result = .error e) ↔
      ∃ blocks b l, StartsWith r (blocks ++ [b]) ∧ ValidConsignment c blocks ∧ Rejection c blocks b e l := by
  constructor
  · rintro ⟨o, h, hres⟩
    obtain ⟨bs, hs⟩ := run_shape h
    obtain ⟨segs, tail, _, _, h3⟩ := hs.stop
    rcases h3 with ⟨h0, _⟩ | ⟨e', h0, _⟩ | ⟨b, e', h0, h4, hrej⟩
    · rw [hres] at h0; simp at h0
    · rw [hres] at h0
      simp only [Except.error.injEq] at h0
      exact absurd h0 (he _)
    · rw [hres] at h0
      simp only [Except.error.injEq] at h0
      subst h0
      exact ⟨bs, b, tail, ⟨_, h4⟩, hs.valid, hrej⟩
  · rintro ⟨blocks, b, l, h1, h2, h3⟩
    obtain ⟨o, k1, k2, _⟩ := evaluate_of_rejection h1 h2 h3
    exact ⟨o, k1, k2⟩

/-- At most one error is due for a block, and none for an acceptable one. -/
theorem C29_unique {c : C} {blocks : List (OperationSeals Seal)} (hv : ValidConsignment c blocks) {b : OperationSeals Seal}
    {e e' : VerificationError Seal E} {l l'} (h : Rejection c blocks b e l) :
    ¬ ValidBlock c blocks blocks.length b ∧ (Rejection c blocks b e' l' → e = e' ∧ l = l') :=
  ⟨not_valid_of_rejected hv h, h.unique hv⟩

end

namespace Demo
/-- A transfer with several faults: it spends an unknown cell, fails its script and its witness. -/
def manyFaults : Block :=
  ⟨{ op 110 [at_ 100 0, at_ 55 0] [.abs 3] with callId := 13 }, .collect [(0, .abs 3)], some (wit 70 [] 0)⟩

/-- With the unknown cell removed. -/
def twoFaults : Block :=
  ⟨{ op 110 [at_ 100 0] [.abs 3] with callId := 13 }, .collect [(0, .abs 3)], some (wit 70 [] 0)⟩

/-- With the script repaired as well. -/
def oneFault : Block := ⟨op 110 [at_ 100 0] [.abs 3], .collect [(0, .abs 3)], some (wit 70 [] 0)⟩
end Demo

open Demo in
example : rejects ledger [genesis] manyFaults = some (.sealUnknown (at_ 55 0)) ∧
    rejects ledger [genesis] twoFaults = some (.vm ⟨"script failure"⟩) ∧
    rejects ledger [genesis] oneFault = some (.sealsNotClosed (70 : Nat) ⟨110⟩ "not closed") := ⟨rfl, rfl, rfl⟩

/-! ## C30 -/

section
variable {Seal : Type} [LinearOrder Seal] [RgbSeal Seal] [OpHash]
variable {C E : Type} [ContractApi Seal C]
variable {R : Type} [ReadOperation Seal R]

/-- `SealUnknown` names the first input of the block which is not open or repeats an earlier one. -/
theorem C30_seal_unknown {c : C} {r : R} {o} {a : CellAddr} (h : evaluate (Seal := Seal) c r = some o)
    (he : o.result = .error (.sealUnknown a)) :
    ∃ (blocks : List (OperationSeals Seal)) (b : OperationSeals Seal) (pre : List Input) (inp : Input) (post : List Input), StartsWith r (blocks ++ [b]) ∧ polls o.world.calls = blocks.length + 1 ∧
      b.operation.destructibleIn = pre ++ inp :: post ∧ inp.addr = a ∧ (pre.map (·.addr)).Nodup ∧
      (∀ i ∈ pre, ∃ s, OpenAt (ContractApi.contractId Seal c) blocks blocks.length i.addr s) ∧
      ((∀ s, ¬ OpenAt (ContractApi.contractId Seal c) blocks blocks.length a s) ∨ a ∈ pre.map (·.addr)) := by
  obtain ⟨bs, hs⟩ := run_shape h
  obtain ⟨segs, tail, _, _, h3⟩ := hs.stop
  rcases h3 with ⟨h0, _⟩ | ⟨e', h0, _⟩ | ⟨b, e', h0, h4, hrej⟩
  · rw [he] at h0; simp at h0
  · rw [he] at h0; simp at h0
  · rw [he] at h0
    simp only [Except.error.injEq] at h0
    subst h0
    cases hrej with
    | @unknown pre post inp _ _ k3 k4 k5 k6 => exact ⟨bs, b, pre, inp, post, ⟨_, h4⟩, hs.polls, k3, rfl, k4, k5, k6⟩

end

open Demo in
example : ∃ o, evaluate (Seal := Nat) ledger (Tape.mk ([genesis, transfer1] ++ [doubleSpend] ++ []) none) = some o ∧
    o.result = .error (.sealUnknown (at_ 100 0)) := rejected_of rfl [] none

/-! ## C31 -/

section
variable {Seal : Type} [LinearOrder Seal] [RgbSeal Seal] [OpHash]
variable {C E : Type} [ContractApi Seal C]
variable {R : Type} [ReadOperation Seal R]

/-- The contract left behind by any run is the initial one after the recorded callbacks. -/
theorem C31_only_callbacks {c : C} {r : R} {o} (h : evaluate (Seal := Seal) c r = some o) :
    o.world.contract = o.world.calls.foldl perform c := by
  obtain ⟨bs, hs⟩ := run_shape h
  obtain ⟨segs, tail, h1, h2, h3, _⟩ := hs.tail
  have hp := h1.perform_take (Nat.le_refl _)
  rw [h1.take_all] at hp
  rw [hs.contract, h2, List.foldl_append, List.foldl_append, show List.foldl perform c [.contractId, .codex] = c from rfl, hp]
  rw [← foldl_perform_filter, List.filter_cons_of_neg (by simp [IsCallback]), h3]
  rfl

/-! ## C32 -/

/-- The contract id is asked for once, at the start; afterwards, in each round of the loop, the
questions are disciplined, and verification always uses the contract id read at the start. -/
theorem C32_queries {c : C} {r : R} {o} (h : evaluate (Seal := Seal) c r = some o) :
    ∃ rounds : List (List (Call Seal)), o.world.calls = [.contractId, .codex] ++ (rounds.map (Call.read :: ·)).flatten ∧
      ∀ seg ∈ rounds, polls seg = 0 ∧ Disciplined (ContractApi.contractId Seal c) seg := by
  obtain ⟨bs, hs⟩ := run_shape h
  obtain ⟨segs, tail, h1, h2, h3, h4, _, h6⟩ := hs.tail
  have hcut : ∀ (c' : C) i (b : OperationSeals Seal), queries (ContractApi.contractId Seal c) c' i b =
      [.isKnown (idAt (ContractApi.contractId Seal c) i b) true] ∨ queries (ContractApi.contractId Seal c) c' i b =
      [.isKnown (idAt (ContractApi.contractId Seal c) i b) false, .codex, .memory, .repo,
        .codexVerify (ContractApi.contractId Seal c) (opAt (ContractApi.contractId Seal c) i b)] := by
    intro c' i b
    unfold queries
    split
    · exact .inl rfl
    · exact .inr rfl
  have hdisc : ∀ (c' : C) i (b : OperationSeals Seal) (l : List (Call Seal)), l.filter IsQuery = [] →
      Disciplined (ContractApi.contractId Seal c) (queries (ContractApi.contractId Seal c) c' i b ++ l) := by
    intro c' i b l hl
    rcases hcut c' i b with h | h
    · right; left
      exact ⟨_, by rw [h, List.filter_append, hl]; rfl⟩
    · right; right
      exact ⟨_, _, by rw [h, List.filter_append, hl]; rfl⟩
  have hcb : ∀ (c' : C) i (b : OperationSeals Seal), (callbacks (ContractApi.contractId Seal c) c' i b).filter IsQuery = [] := by
    intro c' i b
    rw [List.filter_eq_nil_iff]
    intro x hx
    rw [← filter_callbacks] at hx
    have := (List.mem_filter.1 hx).2
    cases x <;> simp_all [IsCallback, IsQuery]
  have hsq : ∀ o (b : OperationSeals Seal) (s : List Seal), (sealQueries o b s).filter IsQuery = [] := by
    intro o b s
    unfold sealQueries
    split <;> rfl
  have key : ∀ l ∈ segs, ∃ seg, l = .read :: seg ∧ polls seg = 0 ∧ Disciplined (ContractApi.contractId Seal c) seg := by
    intro l hl
    obtain ⟨k, hk⟩ := List.mem_iff_getElem?.1 hl
    have hlt := lt_length_of_getElem? hk
    rw [h1.1] at hlt
    obtain ⟨seals, _, e⟩ := h1.2 k _ l (by simp [hlt]; rfl) hk
    refine ⟨_, e, ?_, ?_⟩
    · rw [polls_append, polls_append, polls_queries, polls_sealQueries, polls_callbacks]
    · rw [List.append_assoc]
      exact hdisc _ _ _ _ (by rw [List.filter_append, hsq, hcb]; rfl)
  have : ∃ rs : List (List (Call Seal)), segs = rs.map (Call.read :: ·) ∧
      ∀ seg ∈ rs, polls seg = 0 ∧ Disciplined (ContractApi.contractId Seal c) seg := by
    clear h1 h2
    induction segs with
    | nil => exact ⟨[], rfl, by simp⟩
    | cons l t ih =>
      obtain ⟨rs, e, hrs⟩ := ih (fun l hl => key l (List.mem_cons_of_mem _ hl))
      obtain ⟨seg, e', hseg⟩ := key l List.mem_cons_self
      refine ⟨seg :: rs, by rw [e, e']; rfl, ?_⟩
      intro s hs
      rcases List.mem_cons.1 hs with rfl | hs
      · exact hseg
      · exact hrs s hs
  obtain ⟨rs, e, hrs⟩ := this
  refine ⟨rs ++ [tail], ?_, ?_⟩
  · rw [h2, e]; simp
  · intro seg hseg
    rcases List.mem_append.1 hseg with hseg | hseg
    · exact hrs seg hseg
    · simp only [List.mem_singleton] at hseg
      subst hseg
      refine ⟨h4, ?_⟩
      rcases h6 with rfl | ⟨b, e, hrej⟩
      · exact .inl rfl
      · cases hrej with
        | codex => exact .inl rfl
        | mismatch => exact .inl rfl
        | unknown => exact .inl rfl
        | script => simpa using hdisc _ _ _ [] rfl
        | notClosed => exact hdisc _ _ _ _ rfl
        | noWitness => simpa using hdisc _ _ _ [] rfl

end

open Demo in
example : (∃ o, evaluate (Seal := Nat) ledger (Tape.mk story none) = some o) ∧
    ∃ o, evaluate (Seal := Nat) ledger (Tape.mk ([genesis] ++ [twoFaults] ++ []) none) = some o ∧ o.result = .error (.vm ⟨"script failure"⟩) := by
  obtain ⟨o, h⟩ := story_run
  exact ⟨⟨o, h.run⟩, rejected_of rfl [] none⟩

end Rgb
