import Verif.Props.Continuation
import Verif.TestContract

set_option linter.unusedSectionVars false

/-! # C75: recovery after interrupted evaluations -/

namespace Rgb
open Spec

/-! ## C75 -/

section
variable {Seal : Type} [LinearOrder Seal] [RgbSeal Seal] [OpHash]
variable {C E : Type} [ContractApi Seal C]
variable {R : Type} [ReadOperation Seal R]

theorem optionRel_imp {α β : Type*} {P Q : α → β → Prop} (h : ∀ a b, P a b → Q a b) {x : Option α} {y : Option β}
    (hx : Option.Rel P x y) : Option.Rel Q x y := by
  cases hx with
  | none => exact .none
  | some hx => exact .some (h _ _ hx)

theorem optionRel_trans {α β γ : Type*} {P : α → β → Prop} {Q : β → γ → Prop} {T : α → γ → Prop}
    (h : ∀ a b c, P a b → Q b c → T a c) {x : Option α} {y : Option β} {z : Option γ}
    (hx : Option.Rel P x y) (hy : Option.Rel Q y z) : Option.Rel T x z := by
  cases hx with
  | none => cases hy; exact .none
  | some hx => cases hy with | some hy => exact .some (h _ _ _ hx hy)

/-- A prefix of the callbacks of a consignment is those of some of its blocks and part of those of the next. -/
theorem prefix_callbacksUpTo {cid : ContractId} {c : C} {blocks : List (OperationSeals Seal)} {n : Nat} {p : List (Call Seal)}
    (h : p <+: callbacksUpTo cid c blocks n) :
    ∃ k q, k ≤ n ∧ p = callbacksUpTo cid c blocks k ++ q ∧
      (q = [] ∨ ∃ b, k < n ∧ blocks[k]? = some b ∧ q <+: callbacks cid (contractAt cid c blocks k) k b) := by
  induction n with
  | zero => exact ⟨0, [], Nat.le_refl _, by simpa [callbacksUpTo] using h, .inl rfl⟩
  | succ n ih =>
    rw [callbacksUpTo] at h
    rcases List.prefix_or_prefix_of_prefix h (List.prefix_append _ _) with h' | ⟨q, rfl⟩
    · obtain ⟨k, q, h1, h2, h3⟩ := ih h'
      refine ⟨k, q, by omega, h2, h3.imp id ?_⟩
      rintro ⟨b, h4, h5⟩
      exact ⟨b, by omega, h5⟩
    · rw [List.prefix_append_right_inj] at h
      refine ⟨n, q, by omega, rfl, ?_⟩
      cases hb : blocks[n]? with
      | none => rw [hb] at h; left; simpa using h
      | some b => rw [hb] at h; exact .inr ⟨b, by omega, rfl, h⟩

theorem witnessCallbacks_applied (o : Opid) (b : OperationSeals Seal) : ∀ x ∈ witnessCallbacks o b, appliedOperation x = none := by
  intro x hx
  unfold witnessCallbacks at hx
  split at hx <;> simp at hx
  subst hx; rfl

theorem sealCallbacks_applied (o : Opid) (b : OperationSeals Seal) : ∀ x ∈ sealCallbacks o b, appliedOperation x = none := by
  intro x hx
  unfold sealCallbacks at hx
  split at hx <;> simp at hx
  subst hx; rfl

theorem Spec.ReportBlind.foldlRight {S : C → C → Prop} (hS : ReportBlind (Seal := Seal) S) {c d : C} {l : List (Call Seal)}
    (hl : ∀ x ∈ l, appliedOperation x = none) (h : S c d) : S c (l.foldl perform d) := by
  induction l generalizing d with
  | nil => exact h
  | cons x l ih =>
    refine ih (fun y hy => hl y (by simp [hy])) ?_
    have := hl x (by simp)
    cases x <;> first | exact h | (simp [appliedOperation] at this; done) | skip
    · exact hS.witnessRight _ _ h _ _
    · exact hS.sealsRight _ _ h _ _

theorem filterMap_applied_nil {l : List (Call Seal)} (h : ∀ x ∈ l, appliedOperation x = none) : l.filterMap appliedOperation = [] :=
  List.filterMap_eq_nil_iff.2 h

/-- The contract at any point of an evaluation answers like the contract between two blocks. -/
theorem crash_point {S : C → C → Prop} (hS : ReportBlind (Seal := Seal) S) {cid : ContractId} {c : C}
    {blocks : List (OperationSeals Seal)} {n : Nat} (hn : n ≤ blocks.length) {p : List (Call Seal)} (h : p <+: callbacksUpTo cid c blocks n) :
    ∃ m, m ≤ blocks.length ∧ S (p.foldl perform c) (contractAt cid c blocks m) ∧
      p.filterMap appliedOperation = (callbacksUpTo cid c blocks m).filterMap appliedOperation := by
  obtain ⟨k, q, h1, rfl, h3⟩ := prefix_callbacksUpTo h
  rw [List.foldl_append, ← contractAt_eq_foldl, List.filterMap_append]
  -- nothing applied since the last block
  have stay : (∀ x ∈ q, appliedOperation x = none) → ∃ m, m ≤ blocks.length ∧
      S (q.foldl perform (contractAt cid c blocks k)) (contractAt cid c blocks m) ∧
      (callbacksUpTo cid c blocks k).filterMap appliedOperation ++ q.filterMap appliedOperation =
        (callbacksUpTo cid c blocks m).filterMap appliedOperation := fun hq =>
    ⟨k, by omega, hS.foldl hq (hS.refl _), by rw [filterMap_applied_nil hq, List.append_nil]⟩
  rcases h3 with rfl | ⟨b, h4, h5, h6⟩
  · exact stay (by simp)
  · generalize hW : witnessCallbacks (idAt cid k b) b = W at *
    have cbs : callbacks cid (contractAt cid c blocks k) k b =
        (witnessCallbacks (idAt cid k b) b ++ operationCallbacks cid (contractAt cid c blocks k) k b) ++
          sealCallbacks (idAt cid k b) b := rfl
    have hWn := witnessCallbacks_applied (idAt cid k b) b
    have hLn := sealCallbacks_applied (idAt cid k b) b
    -- everything but reports of seals done
    have next : ∀ L', L' <+: sealCallbacks (idAt cid k b) b →
        q = (witnessCallbacks (idAt cid k b) b ++ operationCallbacks cid (contractAt cid c blocks k) k b) ++ L' →
        ∃ m, m ≤ blocks.length ∧ S (q.foldl perform (contractAt cid c blocks k)) (contractAt cid c blocks m) ∧
        (callbacksUpTo cid c blocks k).filterMap appliedOperation ++ q.filterMap appliedOperation =
        (callbacksUpTo cid c blocks m).filterMap appliedOperation := by
      rintro L' hL rfl
      have hL' : ∀ x ∈ L', appliedOperation x = none := fun x hx => hLn x (hL.subset hx)
      refine ⟨k + 1, by omega, ?_, ?_⟩
      · rw [contractAt, h5]
        simp only
        rw [cbs, List.foldl_append, List.foldl_append (l' := sealCallbacks _ _)]
        exact hS.foldl hL' (hS.foldlRight hLn (hS.refl _))
      · rw [callbacksUpTo, h5]
        simp only
        rw [cbs, List.filterMap_append (l' := L'), List.filterMap_append (l := callbacksUpTo _ _ _ _),
          List.filterMap_append (l' := sealCallbacks _ _), filterMap_applied_nil hL', filterMap_applied_nil hLn]
    rw [cbs] at h6
    rcases List.prefix_or_prefix_of_prefix h6 (List.prefix_append _ _) with h7 | ⟨L', rfl⟩
    · rcases List.prefix_or_prefix_of_prefix h7 (List.prefix_append _ _) with h8 | ⟨O', rfl⟩
      · exact stay fun x hx => hWn x (h8.subset hx)
      · rw [List.prefix_append_right_inj] at h7
        have hO : operationCallbacks cid (contractAt cid c blocks k) k b = [] ∨
            ∃ x, operationCallbacks cid (contractAt cid c blocks k) k b = [x] := by
          unfold operationCallbacks
          split
          · exact .inl rfl
          · split
            · exact .inr ⟨_, rfl⟩
            · exact .inl rfl
        rcases O' with _ | ⟨y, O'⟩
        · exact stay fun x hx => hWn x (by simpa using hx)
        · rcases hO with hO | ⟨x, hO⟩
          · rw [hO] at h7; simp at h7
          · refine next [] (by simp) ?_
            rw [hO] at h7 ⊢
            obtain ⟨t, ht⟩ := h7
            simp at ht
            simp [ht.1, ht.2.1]
    · rw [List.prefix_append_right_inj] at h6
      exact next L' h6 rfl

theorem sim_callbacksUpTo {C₁ C₂ : Type} [ContractApi Seal C₁] [ContractApi Seal C₂] {S : C₁ → C₂ → Prop}
    (hS : Simulation (Seal := Seal) S) {c₁ : C₁} {c₂ : C₂} (h : S c₁ c₂) (cid : ContractId)
    (blocks : List (OperationSeals Seal)) (n : Nat) : callbacksUpTo cid c₁ blocks n = callbacksUpTo cid c₂ blocks n := by
  induction n with
  | zero => rfl
  | succ n ih =>
    rw [callbacksUpTo, callbacksUpTo, ih]
    congr 1
    cases blocks[n]? with
    | none => rfl
    | some b => exact sim_callbacks hS (sim_contractAt hS h cid blocks n) cid n b

/-- Witness and seal callbacks are a matter of the callbacks only. -/
theorem reports_filter (l : List (Call Seal)) : l.filter (fun x => IsCallback x && (appliedOperation x).isNone) =
    (l.filter IsCallback).filter (fun x => (appliedOperation x).isNone) := by
  rw [List.filter_filter]
  congr 1
  funext x
  exact Bool.and_comm _ _

/-- Evaluating a stream from a contract that answers like the one reached after some of its blocks. -/
theorem resume (hl : Lawful Seal C) {S : C → C → Prop} (hS : ReportBlind (Seal := Seal) S) {c d : C}
    (hf : Faithful (ContractApi.codex Seal c)) {r r₁ : R} {xs : List (OperationSeals Seal)} (hr : Reads r xs r₁)
    (hv : ValidConsignment c xs) (h0 : ∀ b, xs[0]? = some b → KnownStart c b)
    (hd : S d (contractAt (ContractApi.contractId Seal c) c xs xs.length)) :
    Option.Rel (fun (o' o : Outcome Seal R C (ReadOperation.Error Seal R)) =>
        o'.result = o.result ∧ o'.reader = o.reader ∧ S o'.world.contract o.world.contract ∧
        (callbacksUpTo (ContractApi.contractId Seal c) c xs xs.length).filterMap appliedOperation ++
            o'.world.calls.filterMap appliedOperation = o.world.calls.filterMap appliedOperation ∧
        o'.world.calls.filter (fun x => IsCallback x && (appliedOperation x).isNone) =
          o.world.calls.filter (fun x => IsCallback x && (appliedOperation x).isNone))
      (evaluate d r) (evaluate c r) := by
  rcases Nat.eq_zero_or_pos xs.length with hz | hz
  · obtain rfl : xs = [] := by simpa using hz
    refine optionRel_imp (fun o' o h => ?_) (C42_parametricity hS.simulation hd r)
    obtain ⟨h1, h2, h3, h4⟩ := h
    refine ⟨h1, h3, h4, ?_, ?_⟩
    · rw [h2]; simp [callbacksUpTo]
    · rw [h2]
  · have hne : xs ≠ [] := by rintro rfl; simp at hz
    obtain ⟨o, k1, k2, k3⟩ := evaluate_of_delivers (testReader_delivers xs) hv
    obtain ⟨o', m1, m2, m3⟩ := C33_idempotent hl hf ⟨k1, k2, testReader_delivers xs⟩ h0 (testReader_delivers xs)
    have hid : ContractApi.contractId Seal d = ContractApi.contractId Seal c := by
      rw [hS.contractId _ _ hd]; exact hl.contractAt_id
    rw [k3.contract] at m1
    generalize he : contractAt (ContractApi.contractId Seal c) c xs xs.length = e at *
    have hide : ContractApi.contractId Seal e = ContractApi.contractId Seal c := by
      rw [← he]; exact hl.contractAt_id
    have hcb : callbacksUpTo (ContractApi.contractId Seal d) d xs xs.length =
        (callbacksUpTo (ContractApi.contractId Seal c) c xs xs.length).filter (fun x => (appliedOperation x).isNone) := by
      rw [hid, sim_callbacksUpTo hS.simulation hd, ← hide, ← m1.shape.callbacks, m3, reports_filter, k3.callbacks, hide]
    have hv' : ValidConsignment d xs := sim_valid (sim_symm hS.simulation) hd m1.valid
    have hp : SamePoint S d xs c xs := by
      refine ⟨hne, hne, hid, fun a s => by rw [hid], ?_⟩
      rw [contractAt_eq_foldl, he]
      refine hS.foldl ?_ hd
      rw [hcb]
      intro x hx
      simpa using (List.mem_filter.1 hx).2
    refine optionRel_imp (fun o' o h => ?_) (C61_checkpoint hS.simulation hp hv' hv hr hr)
    obtain ⟨h1, h2, h3, b₁, b₂, a, q1, q2, -, -, q3, q4⟩ := h
    refine ⟨h1, h2, h3, ?_, ?_⟩
    · rw [q1, q2, List.filterMap_append, List.filterMap_append, applied_filter b₁, applied_filter b₂, q3, q4, hcb]
      rw [show ((callbacksUpTo (ContractApi.contractId Seal c) c xs xs.length).filter
        (fun x => (appliedOperation x).isNone)).filterMap appliedOperation = [] from
          filterMap_applied_nil fun x hx => by simpa using (List.mem_filter.1 hx).2]
      simp
    · rw [q1, q2, List.filter_append, List.filter_append, reports_filter b₁, reports_filter b₂, q3, q4, hcb, List.filter_filter]
      simp

/-- Interruptions of an evaluation that returns: after any initial part of its calls. -/
theorem C75_covers {c : C} {r : R} {o} (h : evaluate (Seal := Seal) c r = some o) {pre : List (Call Seal)}
    (hp : pre <+: o.world.calls) : InterruptedAfter c r pre := by
  obtain ⟨blocks, hs⟩ := run_shape h
  obtain ⟨segs, tail, _, _, h6⟩ := hs.stop
  rcases h6 with ⟨h0, _, r₁, h7, _⟩ | ⟨e, h0, _, r₁, h7, _⟩ | ⟨b, e, h0, h7, h8⟩
  · obtain ⟨o', k1, k2, k3⟩ := evaluate_of_delivers (c := c) (testReader_delivers blocks) hs.valid
    exact ⟨blocks, ⟨_, h7⟩, _, _, _, o', testReader_delivers blocks, k1, by
      rw [k3.calls_eq hs (.inl k2) (.inl h0)]; exact hp⟩
  · obtain ⟨o', k1, k2, k3⟩ := evaluate_of_delivers (c := c) (testReader_delivers blocks) hs.valid
    exact ⟨blocks, ⟨_, h7⟩, _, _, _, o', testReader_delivers blocks, k1, by
      rw [k3.calls_eq hs (.inl k2) (.inr ⟨_, h0⟩)]; exact hp⟩
  · obtain ⟨e₀, -, h9⟩ := h8.empty
    obtain ⟨_, _, hr, _⟩ := testReader_delivers (blocks ++ [b])
    obtain ⟨o', k1, k2, k3, k4⟩ := evaluate_of_rejection (R := TestReader Seal) ⟨_, hr⟩ hs.valid h9
    exact ⟨blocks ++ [b], ⟨_, h7⟩, _, _, _, o', testReader_delivers _, k1, by
      rw [k4.calls_eq_reject hs k2 h0 k3 h7 h9 h8]; exact hp⟩

/-- One interruption. -/
theorem resume_interrupted (hl : Lawful Seal C) {S : C → C → Prop} (hS : ReportBlind (Seal := Seal) S) {c : C}
    (hf : Faithful (ContractApi.codex Seal c)) {r : R} (h0 : ∀ b : OperationSeals Seal, StartsWith r [b] → KnownStart c b)
    {pre : List (Call Seal)} (h : InterruptedAfter c r pre) :
    Option.Rel (fun (o' o : Outcome Seal R C (ReadOperation.Error Seal R)) =>
        o'.result = o.result ∧ o'.reader = o.reader ∧ S o'.world.contract o.world.contract ∧
        pre.filterMap appliedOperation ++ o'.world.calls.filterMap appliedOperation = o.world.calls.filterMap appliedOperation ∧
        o'.world.calls.filter (fun x => IsCallback x && (appliedOperation x).isNone) =
          o.world.calls.filter (fun x => IsCallback x && (appliedOperation x).isNone))
      (evaluate (pre.foldl perform c) r) (evaluate c r) := by
  obtain ⟨all, ⟨q, hq⟩, R', _, r', o, ⟨q₁, _, hq₁, hend⟩, ho, hp⟩ := h
  obtain ⟨blocks, hs⟩ := run_shape ho
  obtain ⟨rest, rfl⟩ : ∃ rest, all = blocks ++ rest := by
    obtain ⟨q₂, hq₂⟩ := hs.starts
    rcases hq₂.det hq₁ with ⟨zs, h1, _⟩ | ⟨zs, h1, h2⟩
    · exact ⟨zs, h1⟩
    · cases h2 with
      | nil => exact ⟨[], by simpa using h1.symm⟩
      | cons h2 _ => rw [hend] at h2; simp at h2
  have hp' : pre.filter IsCallback <+: callbacksUpTo (ContractApi.contractId Seal c) c blocks blocks.length := by
    rw [← hs.callbacks]
    exact hp.filter _
  obtain ⟨m, hm, h1, h2⟩ := crash_point hS (Nat.le_refl _) hp'
  obtain ⟨q₂, hq₂, hq₃⟩ := hq.split
  rw [← List.take_append_drop m blocks] at hq₂
  obtain ⟨q₃, hq₄, _⟩ := hq₂.split
  have hlen : (blocks.take m).length = m := by simp [hm]
  have hca : ∀ k, k ≤ m → contractAt (ContractApi.contractId Seal c) c (blocks.take m) k =
      contractAt (ContractApi.contractId Seal c) c blocks k ∧
      callbacksUpTo (ContractApi.contractId Seal c) c (blocks.take m) k =
      callbacksUpTo (ContractApi.contractId Seal c) c blocks k := by
    intro k hk
    induction k with
    | zero => exact ⟨rfl, rfl⟩
    | succ k ih =>
      obtain ⟨i1, i2⟩ := ih (by omega)
      simp only [contractAt, callbacksUpTo, i1, i2, List.getElem?_take, if_pos (show k < m by omega)]
      exact ⟨trivial, trivial⟩
  have hv : ValidConsignment c (blocks.take m) := by
    have := hs.valid
    rw [← List.take_append_drop m blocks] at this
    exact this.prefix
  rw [foldl_perform_filter] at h1
  have := resume hl hS hf hq₄ hv (fun b hb => h0 b ?_) (d := pre.foldl perform c) (by rw [hlen, (hca m (Nat.le_refl _)).1]; exact h1)
  · refine optionRel_imp (fun o' o h => ?_) this
    obtain ⟨k1, k2, k3, k4, k5⟩ := h
    rw [hlen, (hca m (Nat.le_refl _)).2, ← h2, ← applied_filter] at k4
    exact ⟨k1, k2, k3, k4, k5⟩
  · cases hx : blocks.take m with
    | nil => rw [hx] at hb; simp at hb
    | cons y ys =>
      rw [hx] at hb hq₄
      simp only [List.getElem?_cons_zero, Option.some.injEq] at hb
      subst hb
      cases hq₄ with
      | cons k _ => exact ⟨_, .cons k (.nil _)⟩

/-- Recovery: if evaluating a stream is interrupted, any number of times and wherever, the callbacks made
so far being kept, then evaluating it again in full has the outcome it would have had without any
interruption: the same result and reader, a contract answering alike, exactly the operations applied
which the interrupted attempts did not apply, in order, and all witnesses and seals reported. -/
theorem C75_recovery (hl : Lawful Seal C) {S : C → C → Prop} (hS : ReportBlind (Seal := Seal) S)
    (hT : ∀ a b d, S a b → S b d → S a d) {c c' : C} (hf : Faithful (ContractApi.codex Seal c)) {r : R}
    (h0 : ∀ b : OperationSeals Seal, StartsWith r [b] → KnownStart c b) {l : List (Call Seal)} (h : Attempts r c l c') :
    Option.Rel (fun (o' o : Outcome Seal R C (ReadOperation.Error Seal R)) =>
        o'.result = o.result ∧ o'.reader = o.reader ∧ S o'.world.contract o.world.contract ∧
        l.filterMap appliedOperation ++ o'.world.calls.filterMap appliedOperation = o.world.calls.filterMap appliedOperation ∧
        o'.world.calls.filter (fun x => IsCallback x && (appliedOperation x).isNone) =
          o.world.calls.filter (fun x => IsCallback x && (appliedOperation x).isNone))
      (evaluate c' r) (evaluate c r) := by
  induction h with
  | nil c =>
    cases evaluate (Seal := Seal) c r with
    | none => exact .none
    | some o => exact .some ⟨rfl, rfl, hS.refl _, rfl, rfl⟩
  | @interrupted c c' pre l h _ ih =>
    have h1 := resume_interrupted hl hS hf h0 h
    have h2 := ih (by rw [hl.foldl_codex]; exact hf) (fun b hb => by
      unfold KnownStart
      rw [hl.foldl_id]
      exact hl.foldl_mono (h0 b hb))
    refine optionRel_trans (fun o' o₁ o h2 h1 => ?_) h2 h1
    obtain ⟨a1, a2, a3, a4, a5⟩ := h1
    obtain ⟨b1, b2, b3, b4, b5⟩ := h2
    refine ⟨b1.trans a1, b2.trans a2, hT _ _ _ b3 a3, ?_, b5.trans a5⟩
    rw [← a4, ← b4, List.filterMap_append, List.append_assoc]

end
namespace Demo
theorem sameBooks_trans (a b d : Ledger) (h : sameBooks a b) (h' : sameBooks b d) : sameBooks a d :=
  ⟨h.1.trans h'.1, h.2.1.trans h'.2.1, h.2.2.1.trans h'.2.2.1, h.2.2.2.trans h'.2.2.2⟩

theorem story_start (b : Block) (h : StartsWith (Tape.mk story none) [b]) : KnownStart ledger b := by
  obtain ⟨r₁, h⟩ := h
  cases h with
  | cons h _ =>
    have : genesis = b := by
      have := congrArg Prod.fst h
      simpa [ReadOperation.readOperation, story] using this
    subst this
    unfold KnownStart
    decide +kernel
end Demo

open Demo in
/-- Two attempts to evaluate the story: the first is interrupted right after `apply_operation` for the
first transfer, the second before it polls for the last one. -/
example : ∃ l c', Lawful Nat Ledger ∧ ReportBlind (Seal := Nat) sameBooks ∧ Faithful (ContractApi.codex Nat ledger) ∧
    (∀ b : Block, StartsWith (Tape.mk story none) [b] → KnownStart ledger b) ∧
    Attempts (Seal := Nat) (Tape.mk story none) ledger l c' ∧ (l.filterMap appliedOperation).map (·.opid) = [⟨101⟩] ∧
    polls l = 4 := by
  obtain ⟨o₁, h1⟩ := story_run
  obtain ⟨o₂, h2⟩ := accepted_of_accepts (c := ((callsOf ledger story).take 14).foldl perform ledger) (bs := story) (by decide +kernel)
  refine ⟨(callsOf ledger story).take 14 ++ ((callsOf (((callsOf ledger story).take 14).foldl perform ledger) story).take 10 ++ []),
    _, ledger_lawful, sameBooks_blind, codex_faithful, story_start,
    .interrupted (C75_covers h1.run (by rw [calls_of h1]; exact List.take_prefix _ _))
      (.interrupted (C75_covers h2.run (by rw [calls_of h2]; exact List.take_prefix _ _)) (.nil _)), ?_, ?_⟩ <;> decide +kernel

namespace Demo
/-- A codex like `codex` that accepts operations without inputs only as long as the output of the first
transfer does not exist. -/
def fussyCodex : Codex where
  codexId := ⟨7⟩
  verify cid op mem repo :=
    if op.destructibleIn.isEmpty && (mem.destructible (at_ 101 0)).isSome then .error ⟨"too late"⟩ else codex.verify cid op mem repo

/-- A ledger with this codex which does not know its genesis. -/
def fussy : Ledger := { ledger with known := [], codex := fussyCodex }
end Demo

open Demo in
/-- That the contract knows its genesis is needed: otherwise genesis is verified again, in the state
reached, and the stream may be rejected after an interruption. -/
theorem C75_needs_genesis : ∃ (c c' : Ledger) (r : Tape) (l : List (Call Nat)) (o o' : Outcome Nat Tape Ledger String),
    Lawful Nat Ledger ∧ ReportBlind (Seal := Nat) sameBooks ∧ Faithful (ContractApi.codex Nat c) ∧
    Attempts (Seal := Nat) r c l c' ∧ evaluate (Seal := Nat) c r = some o ∧ o.result = .ok () ∧
    evaluate (Seal := Nat) c' r = some o' ∧ o'.result = .error (.vm ⟨"too late"⟩) := by
  obtain ⟨o₁, h1⟩ := accepted_of_accepts (c := fussy) (bs := [genesis, transfer1]) (by decide +kernel)
  obtain ⟨hv, l, hr⟩ := rejection_of (c := (callsOf fussy [genesis, transfer1]).foldl perform fussy) (bs := []) (b := genesis)
    (e := .vm ⟨"too late"⟩) rfl
  obtain ⟨o₂, h2, h3, _⟩ := evaluate_of_rejection (tape_startsWith ([] ++ [genesis]) [transfer1] none) hv hr
  refine ⟨fussy, _, Tape.mk [genesis, transfer1] none, callsOf fussy [genesis, transfer1] ++ [], o₁, o₂, ledger_lawful, sameBooks_blind, ?_,
    .interrupted (C75_covers h1.run (by rw [calls_of h1]; exact List.prefix_rfl)) (.nil _), h1.run, h1.ok, h2, h3⟩
  intro cid op mem repo v h
  change (if _ then _ else _) = _ at h
  split at h
  · simp at h
  · exact codex_faithful cid op mem repo v h

end Rgb
