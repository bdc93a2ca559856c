import Verif.Props.Excerpts
import Verif.Props.Auditors

set_option linter.unusedSectionVars false

/-! # C84: how much has to be revealed -/

namespace Rgb
open Spec

section
variable {Seal : Type} [LinearOrder Seal] [RgbSeal Seal] [OpHash]
variable {C : Type} [ContractApi Seal C]
variable {R : Type} [ReadOperation Seal R]
variable {xs ys : List (OperationSeals Seal)}

theorem Spec.Trimmed.block (h : Trimmed xs ys) {i : Nat} {b' : OperationSeals Seal} (hb : ys[i]? = some b') :
    ∃ b, xs[i]? = some b ∧ Pruned b b' fun _ => True := by
  have hlt := lt_length_of_getElem? hb
  rw [h.length] at hlt
  exact ⟨xs[i], by simp, h.pruned i _ _ (by simp) hb⟩

theorem Spec.Trimmed.forth (h : Trimmed xs ys) {i : Nat} {b : OperationSeals Seal} (hb : xs[i]? = some b) :
    ∃ b', ys[i]? = some b' ∧ Pruned b b' fun _ => True := by
  have hlt := lt_length_of_getElem? hb
  rw [← h.length] at hlt
  exact ⟨ys[i], by simp, h.pruned i _ _ hb (by simp)⟩

/-- A cell spent in both versions has its definition revealed in both. -/
theorem withheld_of_trimmed {c : C} (ht : Trimmed xs ys) (hx : DistinctIds (ContractApi.contractId Seal c) xs)
    (hv : ValidConsignment c ys) : Withheld (ContractApi.contractId Seal c) xs ys := by
  refine ⟨ht.length, fun i b b' hb hb' => ?_⟩
  have hp := ht.pruned i b b' hb hb'
  refine ⟨hp.operation, hp.witness, hp.kept, ?_⟩
  rintro p d hd hno k bk hk hbk ⟨inp, hi, ha⟩
  obtain ⟨bk', hbk', hpk⟩ := ht.forth hbk
  obtain ⟨seals, g1, _⟩ := (hv k bk' hbk').closed
  rw [hpk.operation] at g1
  obtain ⟨s, hs⟩ : ∃ s, OpenAt (ContractApi.contractId Seal c) ys k inp.addr s := by
    obtain ⟨n, hn⟩ := List.getElem?_of_mem hi
    have hlt : n < seals.length := g1.length_eq ▸ lt_length_of_getElem? hn
    refine ⟨seals[n], ?_⟩
    have := List.forall₂_iff_get.1 g1
    have h2 := this.2 n (lt_length_of_getElem? hn) hlt
    rw [List.getElem?_eq_some_iff] at hn
    simpa [hn.2] using h2
  obtain ⟨j, bj', _, hbj', ⟨h1, d', h2, _⟩, _⟩ := hs
  obtain ⟨bj, hbj, hpj⟩ := ht.block hbj'
  rw [ha, (pruned_id hpj _ _).2] at h1
  obtain rfl := hx i j b bj hb hbj h1
  rw [hb'] at hbj'
  cases hbj'
  rw [ha] at h2
  rw [OMap.key_unique hd (hp.kept _ h2)] at hno
  exact hno h2

theorem first_not {α : Type} {P : α → Prop} : ∀ {l : List α}, (∃ a ∈ l, ¬ P a) →
    ∃ pre a post, l = pre ++ a :: post ∧ (∀ x ∈ pre, P x) ∧ ¬ P a
  | [], h => by simp at h
  | a :: l, h => by
    by_cases ha : P a
    · obtain ⟨pre, x, post, rfl, h1, h2⟩ := first_not (l := l) (by
        obtain ⟨x, hx, hn⟩ := h
        rcases List.mem_cons.1 hx with rfl | hx
        · exact absurd ha hn
        · exact ⟨x, hx, hn⟩)
      exact ⟨a :: pre, x, post, rfl, by simpa using ⟨ha, h1⟩, h2⟩
    · exact ⟨[], a, l, rfl, by simp, ha⟩

/-- A cell open in the whole consignment is open in a version revealing less, if its definition is kept. -/
theorem trimmed_open {cid : ContractId} (ht : Trimmed xs ys) {j k : Nat} {bj bj' : OperationSeals Seal} {a : CellAddr} {s : Seal} {d}
    (hj : j < k) (hbj : xs[j]? = some bj) (hbj' : ys[j]? = some bj') (h1 : a.opid = idAt cid j bj)
    (h2 : (a.pos, d) ∈ bj'.definedSeals.entries)
    (h3 : RgbSeal.toSrc d = some s ∨ RgbSeal.toSrc d = none ∧ ∃ w, bj.witness = some w ∧ s = RgbSeal.resolve d (RgbSeal.pubId w.published))
    (h4 : ∀ m b', j < m → m < k → xs[m]? = some b' → ¬ Consumes b' a ∧ ∀ s', ¬ Announces cid m b' a s') :
    OpenAt cid ys k a s := by
  have hp := ht.pruned j bj bj' hbj hbj'
  refine ⟨j, bj', hj, hbj', ⟨by rw [(pruned_id hp _ _).2]; exact h1, d, h2, by rw [hp.witness]; exact h3⟩, ?_⟩
  intro m bm' hjm hmk hbm'
  obtain ⟨bm, hbm, hpm⟩ := ht.block hbm'
  obtain ⟨h5, h6⟩ := h4 m bm hjm hmk hbm
  refine ⟨?_, ?_⟩
  · rintro ⟨inp, hm, rfl⟩
    rw [hpm.operation] at hm
    exact h5 ⟨inp, hm, rfl⟩
  · rintro s' ⟨g1, d', g2, g3⟩
    rw [(pruned_id hpm _ _).2] at g1
    rw [hpm.witness] at g3
    exact h6 s' ⟨g1, d', hpm.kept _ g2, g3⟩

theorem Spec.Trimmed.take (ht : Trimmed xs ys) (k : Nat) : Trimmed (xs.take k) (ys.take k) := by
  refine ⟨by simp [ht.length], fun i b b' hb hb' => ?_⟩
  rw [List.getElem?_take] at hb hb'
  split at hb
  · rename_i hlt
    rw [if_pos hlt] at hb'
    exact ht.pruned i b b' hb hb'
  · cases hb

/-- Definitions of the block at `i` are missing that the block at `k` needs. -/
def Missing (cid : ContractId) (xs ys : List (OperationSeals Seal)) (k : Nat) : Prop :=
  ∃ (i : Nat) (b b' bk : OperationSeals Seal) (p : U16) (d : RgbSeal.Definition Seal), i < k ∧ xs[i]? = some b ∧ ys[i]? = some b' ∧
    (p, d) ∈ b.definedSeals.entries ∧ (p, d) ∉ b'.definedSeals.entries ∧ xs[k]? = some bk ∧ Consumes bk ⟨idAt cid i b, p⟩

theorem withheld_of_not_missing {cid : ContractId} (ht : Trimmed xs ys) (h : ∀ k, ¬ Missing cid xs ys k) : Withheld cid xs ys := by
  refine ⟨ht.length, fun i b b' hb hb' => ?_⟩
  have hp := ht.pruned i b b' hb hb'
  refine ⟨hp.operation, hp.witness, hp.kept, ?_⟩
  intro p d hd hno k bk hk hbk hc
  exact h k ⟨i, b, b', bk, p, d, hk, hb, hb', hd, hno, hbk, hc⟩

end

section
variable {Seal : Type} [LinearOrder Seal] [RgbSeal Seal] [OpHash]
variable {C : Type} [ContractApi Seal C]
variable {R : Type} [ReadOperation Seal R]
variable {xs ys : List (OperationSeals Seal)}

/-- Of an accepted consignment without repeated operations a version revealing fewer definitions is
accepted exactly if every definition left out belongs to a cell that the consignment does not spend. -/
theorem C84_iff {S : C → C → Prop} (hS : SealBlind (Seal := Seal) S) {c : C} {r : R} {o} (h : Accepted c r xs o)
    (hx : ∀ (i j : Nat) b b', xs[i]? = some b → xs[j]? = some b' →
      idAt (ContractApi.contractId Seal c) i b = idAt (ContractApi.contractId Seal c) j b' → i = j)
    (ht : Trimmed xs ys) {R' : Type} [ReadOperation Seal R'] {r' : R'} (hr : Delivers r' ys) :
    (∃ o', Accepted c r' ys o') ↔ Withheld (ContractApi.contractId Seal c) xs ys := by
  constructor
  · rintro ⟨o', h'⟩
    exact withheld_of_trimmed ht hx h'.valid
  · intro hw
    obtain ⟨o', h', _⟩ := C39_withholding hS h hw hr
    exact ⟨o', h'⟩

/-- Otherwise the evaluation ends with a complaint about a cell whose definition was left out. -/
theorem C84_rejected {S : C → C → Prop} (hS : SealBlind (Seal := Seal) S) {c : C} {r : R} {o} (h : Accepted c r xs o)
    (hx : ∀ (i j : Nat) b b', xs[i]? = some b → xs[j]? = some b' →
      idAt (ContractApi.contractId Seal c) i b = idAt (ContractApi.contractId Seal c) j b' → i = j)
    (ht : Trimmed xs ys) {R' : Type} [ReadOperation Seal R'] {r' : R'} (hr : Delivers r' ys) :
    ∃ o', evaluate (Seal := Seal) c r' = some o' ∧ (o'.result = .ok () ∨
      ∃ (i k : Nat) (b b' bk : OperationSeals Seal) (p : U16) (d : RgbSeal.Definition Seal), i < k ∧
        xs[i]? = some b ∧ ys[i]? = some b' ∧ (p, d) ∈ b.definedSeals.entries ∧ (p, d) ∉ b'.definedSeals.entries ∧
        xs[k]? = some bk ∧ Consumes bk ⟨idAt (ContractApi.contractId Seal c) i b, p⟩ ∧
        o'.result = .error (.sealUnknown ⟨idAt (ContractApi.contractId Seal c) i b, p⟩)) := by
  classical
  by_cases hm : ∃ k, Missing (ContractApi.contractId Seal c) xs ys k
  swap
  · obtain ⟨o', h'⟩ := (C84_iff hS h hx ht hr).2 (withheld_of_not_missing ht (by simpa using hm))
    exact ⟨o', h'.run, .inl h'.ok⟩
  obtain ⟨k, ⟨i, b, b', bk, p, d, hik, hb, hb', hd, hno, hbk, hc⟩, hmin⟩ : ∃ k, Missing (ContractApi.contractId Seal c) xs ys k ∧
      ∀ m < k, ¬ Missing (ContractApi.contractId Seal c) xs ys m := ⟨Nat.find hm, Nat.find_spec hm, fun m hm' => Nat.find_min hm hm'⟩
  have hkl := lt_length_of_getElem? hbk
  obtain ⟨bk', hbk', hpk⟩ := ht.forth hbk
  have vb := h.valid k bk hbk
  have hw : Withheld (ContractApi.contractId Seal c) (xs.take k) (ys.take k) := by
    refine withheld_of_not_missing (ht.take k) ?_
    rintro m ⟨i, b, b', bm, p, d, him, hb, hb', hd, hno, hbm, hc⟩
    rw [List.getElem?_take] at hbm hb hb'
    split at hbm
    · rename_i hmk
      rw [if_pos (by omega)] at hb hb'
      exact hmin m hmk ⟨i, b, b', bm, p, d, him, hb, hb', hd, hno, hbm, hc⟩
    · cases hbm
  have hvx : ValidConsignment c (xs.take k) := by
    have := h.valid
    rw [← List.take_append_drop k xs] at this
    exact this.prefix
  have hv := withheld_valid hS hw hvx
  have hlen : (ys.take k).length = k := by rw [List.length_take, ht.length]; omega
  have hcg : ∀ m < k, (ys.take k)[m]? = ys[m]? := fun m hm => by rw [List.getElem?_take, if_pos hm]
  have hdr : ¬ ∃ s, OpenAt (ContractApi.contractId Seal c) ys k ⟨idAt (ContractApi.contractId Seal c) i b, p⟩ s := by
    rintro ⟨s, j, bj', _, hbj', ⟨h1, d', h2, _⟩, _⟩
    obtain ⟨bj, hbj, hpj⟩ := ht.block hbj'
    rw [(pruned_id hpj _ _).2] at h1
    obtain rfl := hx i j b bj hb hbj h1
    rw [hb'] at hbj'
    cases hbj'
    rw [hb] at hbj
    cases hbj
    rw [OMap.key_unique hd (hpj.kept _ h2)] at hno
    exact hno h2
  obtain ⟨inp₀, hi₀, ha₀⟩ := hc
  obtain ⟨pre, inp, post, hins, hpre, hinp⟩ := first_not (P := fun inp : Input =>
    ∃ s, OpenAt (ContractApi.contractId Seal c) ys k inp.addr s) ⟨inp₀, hi₀, by rw [ha₀]; exact hdr⟩
  have hst : StartsWith r' (ys.take k ++ [bk']) := by
    obtain ⟨y, _, hy, _⟩ := hr
    have e : ys = (ys.take k ++ [bk']) ++ ys.drop (k + 1) := by
      have hlt := lt_length_of_getElem? hbk'
      have : bk' = ys[k] := by rw [List.getElem?_eq_getElem hlt] at hbk'; exact (Option.some.inj hbk').symm
      rw [this]
      simp
    rw [e] at hy
    obtain ⟨w, hw, _⟩ := hy.split
    exact ⟨w, hw⟩
  have hrej : Rejection c (ys.take k) bk' (.sealUnknown inp.addr : VerificationError Seal (ReadOperation.Error Seal R')) [] := by
    refine .unknown (pre := pre) (post := post) ?_ ?_ (by rw [hpk.operation]; exact hins) ?_ ?_ (.inl ?_)
    · intro hnil
      rw [hnil] at hlen
      rw [hpk.operation]
      exact vb.codex hlen.symm
    · intro p d hpd
      rw [hpk.operation]
      exact vb.committed p d (hpk.kept _ hpd)
    · have := vb.distinct
      rw [hins, List.map_append] at this
      exact this.of_append_left
    · intro i hi
      obtain ⟨s, hs⟩ := hpre i hi
      rw [hlen]
      exact ⟨s, (openAt_congr hcg).2 hs⟩
    · intro s hs
      rw [hlen] at hs
      exact hinp ⟨s, (openAt_congr hcg).1 hs⟩
  obtain ⟨o', k1, k2, _⟩ := evaluate_of_rejection hst hv hrej
  refine ⟨o', k1, .inr ?_⟩
  have hmem : inp ∈ bk.operation.destructibleIn := by rw [hins]; simp
  obtain ⟨seals, g1, _⟩ := vb.closed
  obtain ⟨s, j, bj, hj, hbj, ⟨h1, d', h2, h3⟩, h4⟩ : ∃ s, OpenAt (ContractApi.contractId Seal c) xs k inp.addr s := by
    obtain ⟨n, hn⟩ := List.getElem?_of_mem hmem
    have hlt : n < seals.length := g1.length_eq ▸ lt_length_of_getElem? hn
    refine ⟨seals[n], ?_⟩
    have h2 := (List.forall₂_iff_get.1 g1).2 n (lt_length_of_getElem? hn) hlt
    rw [List.getElem?_eq_some_iff] at hn
    simpa [hn.2] using h2
  obtain ⟨bj', hbj', hpj⟩ := ht.forth hbj
  have hdrop : (inp.addr.pos, d') ∉ bj'.definedSeals.entries := fun hk =>
    hinp ⟨s, trimmed_open ht hj hbj hbj' h1 hk h3 h4⟩
  have he : inp.addr = ⟨idAt (ContractApi.contractId Seal c) j bj, inp.addr.pos⟩ := by rw [← h1]
  exact ⟨j, k, bj, bj', bk, inp.addr.pos, d', hj, hbj, hbj', h2, hdrop, hbk, ⟨inp, hmem, he⟩, by rw [← he]; exact k2⟩

/-- There is a version revealing the least. -/
theorem C84_least {S : C → C → Prop} (hS : SealBlind (Seal := Seal) S) {c : C} {r : R} {o} (h : Accepted c r xs o)
    (hx : ∀ (i j : Nat) b b', xs[i]? = some b → xs[j]? = some b' →
      idAt (ContractApi.contractId Seal c) i b = idAt (ContractApi.contractId Seal c) j b' → i = j) :
    ∃ zs, Trimmed xs zs ∧
      (∀ (i : Nat) b z p d, xs[i]? = some b → zs[i]? = some z → ((p, d) ∈ z.definedSeals.entries ↔
        (p, d) ∈ b.definedSeals.entries ∧
          ∃ (k : Nat) (bk : OperationSeals Seal), i < k ∧ xs[k]? = some bk ∧
            Consumes bk ⟨idAt (ContractApi.contractId Seal c) i b, p⟩)) ∧
      (∀ {R' : Type} [ReadOperation Seal R'] (r' : R'), Delivers r' zs → ∃ o', Accepted c r' zs o' ∧
        (o'.world.calls.filter fun x => !IsSealReport x) = (o.world.calls.filter fun x => !IsSealReport x) ∧
        S o.world.contract o'.world.contract) ∧
      ∀ (ys : List (OperationSeals Seal)) {R' : Type} [ReadOperation Seal R'] (r' : R') (o' : _), Trimmed xs ys → Accepted c r' ys o' →
        ∀ (i : Nat) z y, zs[i]? = some z → ys[i]? = some y → ∀ e ∈ z.definedSeals.entries, e ∈ y.definedSeals.entries := by
  classical
  let keep (i : Nat) (b : OperationSeals Seal) (e : U16 × RgbSeal.Definition Seal) : Bool := decide (∃ (k : Nat) (bk : OperationSeals Seal),
    i < k ∧ xs[k]? = some bk ∧ Consumes bk ⟨idAt (ContractApi.contractId Seal c) i b, e.1⟩)
  let zs := xs.mapIdx fun i b => { b with definedSeals := ⟨b.definedSeals.entries.filter (keep i b), b.definedSeals.sorted.filter _⟩ }
  have hz : ∀ (i : Nat) z, zs[i]? = some z → ∃ b, xs[i]? = some b ∧
      z = { b with definedSeals := ⟨b.definedSeals.entries.filter (keep i b), b.definedSeals.sorted.filter _⟩ } := by
    intro i z hz
    simp only [zs, List.getElem?_mapIdx, Option.map_eq_some_iff] at hz
    obtain ⟨b, hb, rfl⟩ := hz
    exact ⟨b, hb, rfl⟩
  have ht : Trimmed xs zs := by
    refine ⟨by simp [zs], fun i b z hb hz' => ?_⟩
    obtain ⟨b', hb', rfl⟩ := hz i z hz'
    rw [hb] at hb'
    cases hb'
    exact ⟨rfl, rfl, fun e he => (List.mem_filter.1 he).1, fun _ _ _ _ => trivial⟩
  have hmem : ∀ (i : Nat) b z p d, xs[i]? = some b → zs[i]? = some z → ((p, d) ∈ z.definedSeals.entries ↔
        (p, d) ∈ b.definedSeals.entries ∧
          ∃ (k : Nat) (bk : OperationSeals Seal), i < k ∧ xs[k]? = some bk ∧
            Consumes bk ⟨idAt (ContractApi.contractId Seal c) i b, p⟩) := by
    intro i b z p d hb hz'
    obtain ⟨b', hb', rfl⟩ := hz i z hz'
    rw [hb] at hb'
    cases hb'
    simp only [List.mem_filter, keep, decide_eq_true_eq]
  have hw : Withheld (ContractApi.contractId Seal c) xs zs := by
    refine withheld_of_not_missing ht ?_
    rintro k ⟨i, b, z, bk, p, d, hik, hb, hz', hd, hno, hbk, hc⟩
    exact hno ((hmem i b z p d hb hz').2 ⟨hd, k, bk, hik, hbk, hc⟩)
  refine ⟨zs, ht, hmem, fun r' hr => C39_withholding hS h hw hr, ?_⟩
  intro ys R' _ r' o' hty h' i z y hz' hy e he
  obtain ⟨b, hb, _⟩ := hz i z hz'
  obtain ⟨hd, k, bk, hik, hbk, hc⟩ := (hmem i b z e.1 e.2 hb hz').1 he
  by_contra hno
  exact ((withheld_of_trimmed hty hx h'.valid).pruned i b y hb hy).dropped e.1 e.2 hd hno k bk hik hbk hc

/-- Excerpts need not reveal more than the excerpt itself spends. -/
theorem C84_excerpt {S : C → C → Prop} (hS : SealBlind (Seal := Seal) S) (hl : Lawful Seal C) (hm : LocalMemory Seal C) {c : C}
    (hf : Faithful (ContractApi.codex Seal c)) (hc : LocalCodex (ContractApi.codex Seal c)) {r : R} {o} (h : Accepted c r xs o)
    (hx : ∀ (i j : Nat) b b', xs[i]? = some b → xs[j]? = some b' →
      idAt (ContractApi.contractId Seal c) i b = idAt (ContractApi.contractId Seal c) j b' → i = j)
    (hr : ReadsEarlier (ContractApi.contractId Seal c) xs) (he : Excerpt (ContractApi.contractId Seal c) xs ys)
    {zs : List (OperationSeals Seal)} (ht : Trimmed ys zs) {R' : Type} [ReadOperation Seal R'] {r' : R'} (hd : Delivers r' zs) :
    (∃ o', Accepted c r' zs o') ↔ Withheld (ContractApi.contractId Seal c) ys zs := by
  obtain ⟨o₁, h1, _⟩ := C76_excerpt hl hm hf hc h hx hr he (scroll_delivers ys)
  exact C84_iff hS h1 (he.ids hx) ht hd

end

namespace Demo
/-- Genesis not revealing the seal of output 0, which the first transfer spends. -/
def coyGenesis : Block := ⟨genesisOp, .collect [(1, .abs 5), (2, .rel 2)], none⟩

theorem trimmed_of {xs ys : List Block} (hl : ys.length = xs.length)
    (h : ∀ e ∈ xs.zip ys, e.2.operation = e.1.operation ∧ e.2.witness = e.1.witness ∧
      ∀ q ∈ e.2.definedSeals.entries, q ∈ e.1.definedSeals.entries) : Trimmed (Seal := Nat) xs ys := by
  refine ⟨hl, fun i b b' hb hb' => ?_⟩
  obtain ⟨h1, h2, h3⟩ := h (b, b') (List.mem_of_getElem? (i := i) (by rw [List.getElem?_zip_eq_some]; exact ⟨hb, hb'⟩))
  exact ⟨h1, h2, h3, fun _ _ _ _ => trivial⟩

theorem trim_first {g g' : Block} {xs : List Block} (h1 : g'.operation = g.operation) (h2 : g'.witness = g.witness)
    (h3 : ∀ q ∈ g'.definedSeals.entries, q ∈ g.definedSeals.entries) : Trimmed (Seal := Nat) (g :: xs) (g' :: xs) := by
  refine trimmed_of rfl fun e he => ?_
  simp only [List.zip_cons_cons, List.mem_cons] at he
  rcases he with rfl | he
  · exact ⟨h1, h2, h3⟩
  · obtain ⟨a, b⟩ := e
    obtain ⟨n, hn⟩ := List.getElem?_of_mem he
    rw [List.getElem?_zip_eq_some] at hn
    have : a = b := Option.some.inj (hn.1.symm.trans hn.2)
    subst this
    exact ⟨rfl, rfl, fun _ h => h⟩
end Demo

open Demo in
/-- One version that is accepted and one that is not. -/
example : ∃ o, SealBlind (Seal := Nat) sameButSeals ∧ Accepted ledger (Tape.mk story none) story o ∧
    (∀ (i j : Nat) b b', story[i]? = some b → story[j]? = some b' →
      idAt (ContractApi.contractId Nat ledger) i b = idAt (ContractApi.contractId Nat ledger) j b' → i = j) ∧
    Trimmed (Seal := Nat) story [discreetGenesis, transfer1, transfer2] ∧
    Trimmed (Seal := Nat) story [coyGenesis, transfer1, transfer2] ∧
    (∃ o', Accepted ledger (Tape.mk [discreetGenesis, transfer1, transfer2] none) [discreetGenesis, transfer1, transfer2] o') ∧
    ∃ o', evaluate (Seal := Nat) ledger (Tape.mk [coyGenesis, transfer1, transfer2] none) = some o' ∧
      o'.result = .error (.sealUnknown (at_ 100 0)) := by
  obtain ⟨o, h⟩ := story_run
  obtain ⟨o', h'⟩ := accepted_of_accepts (c := ledger) (bs := [discreetGenesis, transfer1, transfer2]) (by decide +kernel)
  obtain ⟨o₁, h1, h2⟩ := rejected_of (c := ledger) (bs := [coyGenesis]) (b := transfer1) (e := .sealUnknown (at_ 100 0)) rfl [transfer2] none
  exact ⟨o, ledger_blind, h, distinct_of_nodup (cid := ⟨9⟩) (by decide +kernel), trim_first rfl rfl (by decide +kernel),
    trim_first rfl rfl (by decide +kernel), ⟨o', h'⟩, o₁, h1, h2⟩

open Demo in
/-- An excerpt revealing only what the second transfer spends. -/
example : ∃ o, Lawful Nat Ledger ∧ LocalMemory Nat Ledger ∧ Faithful (ContractApi.codex Nat ledger) ∧
    LocalCodex (ContractApi.codex Nat ledger) ∧ Accepted ledger (Tape.mk branches none) branches o ∧
    ReadsEarlier (ContractApi.contractId Nat ledger) branches ∧
    Excerpt (ContractApi.contractId Nat ledger) branches [genesis, transfer3] ∧
    Trimmed (Seal := Nat) [genesis, transfer3] [coyGenesis, transfer3] ∧
    ∃ o', Accepted ledger (Tape.mk [coyGenesis, transfer3] none) [coyGenesis, transfer3] o' := by
  obtain ⟨o, h⟩ := accepted_of_accepts (c := ledger) (bs := branches) (by decide +kernel)
  obtain ⟨o', h'⟩ := accepted_of_accepts (c := ledger) (bs := [coyGenesis, transfer3]) (by decide +kernel)
  exact ⟨o, ledger_lawful, ledger_localMemory, codex_faithful, codex_local, h, branches_reads,
    excerpt_of rfl ⟨[transfer3], .refl _, .cons _ (.cons_cons _ (.cons _ .slnil))⟩ (by decide +kernel),
    trim_first rfl rfl (by decide +kernel), o', h'⟩

open Demo in
/-- With repeated operations less may be enough: the definition may be revealed by the repetition. -/
theorem C84_needs_distinct : ∃ (xs ys : List Block) (o o' : Outcome Nat Tape Ledger String),
    SealBlind (Seal := Nat) sameButSeals ∧ Accepted ledger (Tape.mk xs none) xs o ∧ Trimmed (Seal := Nat) xs ys ∧
    Accepted ledger (Tape.mk ys none) ys o' ∧ ¬ Withheld (ContractApi.contractId Nat ledger) xs ys := by
  obtain ⟨o, h⟩ := accepted_of_accepts (c := ledger) (bs := [genesis, genesisAgain, transfer1]) (by decide +kernel)
  obtain ⟨o', h'⟩ := accepted_of_accepts (c := ledger) (bs := [coyGenesis, genesisAgain, transfer1]) (by decide +kernel)
  refine ⟨_, [coyGenesis, genesisAgain, transfer1], o, o', ledger_blind, h, trim_first rfl rfl (by decide +kernel), h', fun hw => ?_⟩
  refine (hw.pruned 0 genesis coyGenesis rfl rfl).dropped 0 (.abs 1) (by decide +kernel) (by decide +kernel) 2 transfer1 (by omega) rfl ?_
  exact ⟨⟨at_ 100 0, .none⟩, by simp [transfer1, op], rfl⟩

end Rgb
