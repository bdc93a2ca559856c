import Verif.Props.Encoding
import Verif.Props.Continuation

set_option linter.unusedSectionVars false

/-! # C83: consignments as files -/

namespace Rgb
open Spec

namespace Codec
variable {α β : Type}

theorem streaming_pair {c : Codec α} {d : Codec β} (hc : c.Streaming) (hd : d.Streaming) : (pair c d).Streaming := by
  rintro bytes ⟨a, b⟩ rest h
  simp only [pair, Option.bind_eq_bind, Option.pure_def, Option.bind_eq_some_iff, Option.some.injEq, Prod.exists,
    Prod.mk.injEq] at h
  obtain ⟨a', r, h1, b', r', h2, ⟨rfl, rfl⟩, rfl⟩ := h
  obtain ⟨x, rfl, hx⟩ := hc _ _ _ h1
  obtain ⟨y, rfl, hy⟩ := hd _ _ _ h2
  refine ⟨x ++ y, by simp, fun rest' => ?_⟩
  simp [pair, List.append_assoc, hx, hy]

theorem streaming_via {c : Codec α} (hc : c.Streaming) {f : β → α} {g : α → β} : (via c f g).Streaming := by
  intro bytes b rest h
  simp only [via, Option.map_eq_some_iff, Prod.exists, Prod.mk.injEq] at h
  obtain ⟨a, r, h1, rfl, rfl⟩ := h
  obtain ⟨e, rfl, he⟩ := hc _ _ _ h1
  exact ⟨e, rfl, fun rest' => by simp [via, he]⟩

theorem streaming_u16 : u16.Streaming := by
  intro bytes n rest h
  match bytes, h with
  | lo :: hi :: r, h =>
    simp only [u16, Option.some.injEq, Prod.mk.injEq] at h
    obtain ⟨rfl, rfl⟩ := h
    exact ⟨[lo, hi], rfl, fun _ => rfl⟩
  | [], h => simp [u16] at h
  | [_], h => simp [u16] at h

theorem streaming_option {c : Codec α} (hc : c.Streaming) : (option c).Streaming := by
  intro bytes a rest h
  simp only [option] at h
  split at h
  · simp only [Option.some.injEq, Prod.mk.injEq] at h
    obtain ⟨rfl, rfl⟩ := h
    exact ⟨[0], rfl, fun _ => rfl⟩
  · simp only [Option.map_eq_some_iff, Prod.exists, Prod.mk.injEq] at h
    obtain ⟨a, r, h1, rfl, rfl⟩ := h
    obtain ⟨e, rfl, he⟩ := hc _ _ _ h1
    refine ⟨[1] ++ e, rfl, fun rest' => ?_⟩
    change (c.dec (e ++ rest')).map _ = _
    rw [he]
    rfl
  · simp at h

theorem streaming_decList {c : Codec α} (hc : c.Streaming) :
    ∀ (n : Nat) bytes l rest, decList c n bytes = some (l, rest) →
      ∃ e, bytes = e ++ rest ∧ ∀ rest', decList c n (e ++ rest') = some (l, rest')
  | 0, bytes, l, rest, h => by
    simp only [decList, Option.some.injEq, Prod.mk.injEq] at h
    obtain ⟨rfl, rfl⟩ := h
    exact ⟨[], rfl, fun _ => rfl⟩
  | n + 1, bytes, l, rest, h => by
    simp only [decList, Option.bind_eq_bind, Option.pure_def, Option.bind_eq_some_iff, Option.some.injEq, Prod.exists,
      Prod.mk.injEq] at h
    obtain ⟨a, r, h1, l', r', h2, rfl, rfl⟩ := h
    obtain ⟨x, rfl, hx⟩ := hc _ _ _ h1
    obtain ⟨y, rfl, hy⟩ := streaming_decList hc n _ _ _ h2
    exact ⟨x ++ y, by simp, fun rest' => by simp [decList, List.append_assoc, hx, hy]⟩

theorem streaming_smallOrdMap {K V : Type} [LinearOrder K] {check : List (K × V) → Bool} {ck : Codec K} {cv : Codec V}
    (hck : ck.Streaming) (hcv : cv.Streaming) : (smallOrdMap check ck cv).Streaming := by
  intro bytes m rest h
  simp only [smallOrdMap, Option.bind_eq_bind, Option.pure_def, Option.bind_eq_some_iff, Prod.exists,
    Option.ite_none_right_eq_some, Option.some.injEq, Prod.mk.injEq] at h
  obtain ⟨n, r, h1, l, r', h2, h3, rfl, rfl⟩ := h
  obtain ⟨x, rfl, hx⟩ := streaming_u16 _ _ _ h1
  obtain ⟨y, rfl, hy⟩ := streaming_decList (streaming_pair hck hcv) _ _ _ _ h2
  exact ⟨x ++ y, by simp, fun rest' => by simp [smallOrdMap, List.append_assoc, hx, hy, h3]⟩

/-- Encodings of lists can be put together. -/
theorem encList_append {c : Codec α} : ∀ (l l' : List α) {e e'}, encList c l = some e → encList c l' = some e' →
    encList c (l ++ l') = some (e ++ e')
  | [], l', e, e', h, h' => by
    simp only [encList, Option.some.injEq] at h
    subst h
    simpa using h'
  | a :: l, l', e, e', h, h' => by
    simp only [encList, Option.bind_eq_bind, Option.pure_def, Option.bind_eq_some_iff, Option.some.injEq] at h
    obtain ⟨x, hx, y, hy, rfl⟩ := h
    simp [encList, hx, encList_append l l' hy h', List.append_assoc]

end Codec

/-- Two readers delivering the same bundles are alike. -/
theorem same_delivery {Seal : Type} [LinearOrder Seal] [RgbSeal Seal] [OpHash] {C : Type} [ContractApi Seal C]
    {R R' : Type} [ReadOperation Seal R] [ReadOperation Seal R'] {c : C} {r : R} {r' : R'} {xs : List (OperationSeals Seal)}
    (hd : Delivers r xs) (hd' : Delivers r' xs) (f : ReadOperation.Error Seal R → ReadOperation.Error Seal R') {o}
    (h : evaluate (Seal := Seal) c r = some o) :
    ∃ o', evaluate (Seal := Seal) c r' = some o' ∧ o'.result = o.result.mapError (·.mapStream f) ∧ o'.world = o.world := by
  obtain ⟨bs, hs⟩ := run_shape h
  obtain ⟨segs, tail, _, _, h3⟩ := hs.stop
  obtain ⟨z, z', hz, hz'⟩ := hd
  have key : ∀ {r₁ x}, Reads r bs r₁ → ReadOperation.readOperation (Seal := Seal) r₁ = (x, o.reader) →
      (∀ b, x ≠ .ok (some b)) → bs = xs ∧ x = .ok none := by
    intro r₁ x h4 h5 hx
    rcases h4.det hz with ⟨zs, e, hq⟩ | ⟨zs, e, hq⟩
    · cases hq with
      | nil =>
        rw [h5] at hz'
        simp only [Prod.mk.injEq] at hz'
        exact ⟨by simp [e], hz'.1⟩
      | cons hq _ => rw [h5] at hq; simp only [Prod.mk.injEq] at hq; exact absurd hq.1 (hx _)
    · cases hq with
      | nil =>
        rw [h5] at hz'
        simp only [Prod.mk.injEq] at hz'
        exact ⟨by simp [e], hz'.1⟩
      | cons hq _ => rw [hz'] at hq; simp at hq
  rcases h3 with ⟨h0, _, r₁, h4, h5⟩ | ⟨e, h0, _, r₁, h4, h5⟩ | ⟨b, e, h0, h4, hrej⟩
  · obtain ⟨rfl, _⟩ := key h4 h5 (by simp)
    obtain ⟨o', k1, k2, k3⟩ := evaluate_of_delivers (c := c) hd' hs.valid
    exact ⟨o', k1, by rw [k2, h0]; rfl, k3.calls_eq hs (.inl k2) (.inl h0)⟩
  · have := (key h4 h5 (by simp)).2
    simp at this
  · have hst : StartsWith r' (bs ++ [b]) := by
      obtain ⟨y, _, hy, _⟩ := hd'
      rcases h4.det hz with ⟨zs, e1, _⟩ | ⟨zs, e1, hq⟩
      · rw [e1] at hy
        obtain ⟨w, hw, _⟩ := hy.split
        exact ⟨w, hw⟩
      · cases hq with
        | nil => rw [List.append_nil] at e1; exact ⟨_, e1 ▸ hy⟩
        | cons hq _ => rw [hz'] at hq; simp at hq
    obtain ⟨o', k1, k2, k3, k4⟩ := evaluate_of_rejection hst hs.valid (hrej.map f)
    exact ⟨o', k1, by rw [k2, h0]; rfl, k4.calls_eq_reject hs k2 h0 k3 h4 (hrej.map f) hrej⟩

section
variable {Seal : Type} [LinearOrder Seal] [RgbSeal Seal]
variable {F : Fields Seal}

theorem streaming_bundle (h : F.Streaming) : F.bundle.Streaming := by
  unfold Fields.bundle OperationSeals.codec SealWitness.codec
  exact Codec.streaming_via (Codec.streaming_pair h.operation (Codec.streaming_pair
    (Codec.streaming_smallOrdMap Codec.streaming_u16 h.definition)
    (Codec.streaming_option (Codec.streaming_via (Codec.streaming_pair h.published h.client)))))

theorem lawful_bundle (h : F.Lawful) : F.bundle.Lawful := fun b e he rest =>
  C48_round_trip h.operation h.definition h.published h.client h.check b e he rest

theorem canonical_bundle (h : F.Canonical) : F.bundle.Canonical := fun bytes b rest hb =>
  C48_canonical h.operation h.definition h.published h.client h.check bytes rest b hb

/-- A bundle takes at least three bytes: the number of its seals and the tag of the witness. -/
theorem bundle_length (hs : F.Streaming) {bytes rest : Bytes} {b : OperationSeals Seal}
    (h : F.bundle.dec bytes = some (b, rest)) :
    rest.length + 3 ≤ bytes.length := by
  simp only [Fields.bundle, OperationSeals.codec, Codec.via, Codec.pair, Option.bind_eq_bind, Option.pure_def, Option.map_eq_some_iff,
    Option.bind_eq_some_iff, Option.some.injEq, Prod.exists, Prod.mk.injEq] at h
  obtain ⟨_, _, _, _, ⟨_, r₁, h1, _, _, r, ⟨_, r₂, h2, _, r₃, h3, _, rfl⟩, _, rfl⟩, _, rfl⟩ := h
  obtain ⟨x, rfl, _⟩ := hs.operation _ _ _ h1
  have e2 : r₂.length + 2 ≤ r₁.length := by
    simp only [Codec.smallOrdMap, Option.bind_eq_bind, Option.pure_def, Option.bind_eq_some_iff, Prod.exists,
      Option.ite_none_right_eq_some, Option.some.injEq, Prod.mk.injEq] at h2
    obtain ⟨n, r, h4, l, r', h5, -, -, rfl⟩ := h2
    obtain ⟨y, rfl, _⟩ := Codec.streaming_decList (Codec.streaming_pair Codec.streaming_u16 hs.definition) _ _ _ _ h5
    match r₁, h4 with
    | lo :: hi :: r, h4 =>
      simp only [Codec.u16, Option.some.injEq, Prod.mk.injEq] at h4
      obtain ⟨-, rfl⟩ := h4
      simp
    | [], h4 => simp [Codec.u16] at h4
    | [_], h4 => simp [Codec.u16] at h4
  have e3 : r₃.length + 1 ≤ r₂.length := by
    simp only [Codec.option] at h3
    split at h3
    · simp only [Option.some.injEq, Prod.mk.injEq] at h3
      obtain ⟨-, rfl⟩ := h3
      simp
    · simp only [Option.map_eq_some_iff, Prod.exists, Prod.mk.injEq] at h3
      obtain ⟨a, r, h6, -, rfl⟩ := h3
      obtain ⟨z, rfl, _⟩ := Codec.streaming_via (Codec.streaming_pair hs.published hs.client) _ _ _ h6
      simp
    · simp at h3
  simp only [List.length_append]
  omega


theorem bundle_nonempty {b : OperationSeals Seal} {e : Bytes} (h : F.bundle.enc b = some e) : e ≠ [] := by
  simp only [Fields.bundle, OperationSeals.codec, Codec.via, Codec.pair, Option.bind_eq_bind, Option.pure_def,
    Option.bind_eq_some_iff, Option.some.injEq] at h
  obtain ⟨x, _, _, ⟨y, _, z, hz, rfl⟩, rfl⟩ := h
  have : z ≠ [] := by
    rintro rfl
    cases hw : b.witness <;> simp [Codec.option, hw] at hz
  simp [this]

theorem file_read {bytes : Bytes} (h : bytes ≠ []) : ReadOperation.readOperation (Seal := Seal) (File.mk (F := F) bytes) =
    match F.bundle.dec bytes with
      | some (b, rest) => (.ok (some b), ⟨rest⟩)
      | none => (.error (), ⟨bytes⟩) := by
  cases bytes with
  | nil => exact absurd rfl h
  | cons x l => rfl

theorem file_reads (hl : F.bundle.Lawful) : ∀ {xs : List (OperationSeals Seal)} {e : Bytes} (rest : Bytes),
    Codec.encList F.bundle xs = some e → Reads (Seal := Seal) (File.mk (F := F) (e ++ rest)) xs ⟨rest⟩
  | [], e, rest, h => by
    simp only [Codec.encList, Option.some.injEq] at h
    subst h
    exact .nil _
  | b :: xs, e, rest, h => by
    simp only [Codec.encList, Option.bind_eq_bind, Option.pure_def, Option.bind_eq_some_iff, Option.some.injEq] at h
    obtain ⟨x, hx, y, hy, rfl⟩ := h
    refine .cons (r₁ := ⟨y ++ rest⟩) ?_ (file_reads hl rest hy)
    rw [List.append_assoc, file_read (by simp [bundle_nonempty hx]), hl b x hx]

theorem reads_file (hc : F.bundle.Canonical) {xs : List (OperationSeals Seal)} {f g : File F} (h : Reads (Seal := Seal) f xs g) :
    ∃ e, Codec.encList F.bundle xs = some e ∧ f.left = e ++ g.left := by
  induction h with
  | nil r => exact ⟨[], rfl, rfl⟩
  | @cons f f₁ g b bs hr _ ih =>
    obtain ⟨e, he, hf⟩ := ih
    by_cases hne : f.left = []
    · simp [ReadOperation.readOperation, hne] at hr
    · rw [show f = ⟨f.left⟩ from rfl, file_read hne] at hr
      cases hd : F.bundle.dec f.left with
      | none => rw [hd] at hr; simp at hr
      | some p =>
        obtain ⟨b', rest⟩ := p
        rw [hd] at hr
        simp only [Prod.mk.injEq, Except.ok.injEq, Option.some.injEq] at hr
        obtain ⟨rfl, rfl⟩ := hr
        obtain ⟨x, hx, hb⟩ := hc _ _ _ hd
        refine ⟨x ++ e, by simp [Codec.encList, hx, he], ?_⟩
        rw [hb, List.append_assoc, ← hf]

theorem file_end : Delivers (Seal := Seal) (File.mk (F := F) []) [] := ⟨_, _, .nil _, rfl⟩

/-- Reading takes three bytes for every bundle at least. -/
theorem reads_length (hs : F.Streaming) {xs : List (OperationSeals Seal)} {f g : File F} (h : Reads (Seal := Seal) f xs g) :
    3 * xs.length + g.left.length ≤ f.left.length := by
  induction h with
  | nil r => simp
  | @cons f f₁ g b bs hr _ ih =>
    by_cases hne : f.left = []
    · simp [ReadOperation.readOperation, hne] at hr
    · rw [show f = ⟨f.left⟩ from rfl, file_read hne] at hr
      cases hd : F.bundle.dec f.left with
      | none => rw [hd] at hr; simp at hr
      | some p =>
        obtain ⟨b', rest⟩ := p
        rw [hd] at hr
        simp only [Prod.mk.injEq, Except.ok.injEq, Option.some.injEq] at hr
        obtain ⟨rfl, rfl⟩ := hr
        have := bundle_length hs hd
        simp only [List.length_cons] at *
        omega

theorem delivers_file (hl : F.Lawful) {xs : List (OperationSeals Seal)} {bytes : Bytes}
    (h : Codec.encList F.bundle xs = some bytes) : Delivers (Seal := Seal) (File.mk (F := F) bytes) xs := by
  have := file_reads (lawful_bundle hl) [] h
  rw [List.append_nil] at this
  exact ⟨_, _, this, rfl⟩

/-- Where a cut through a file falls. -/
theorem cut (hl : F.bundle.Lawful) (hs : F.bundle.Streaming) : ∀ {xs : List (OperationSeals Seal)} {p q : Bytes},
    Codec.encList F.bundle xs = some (p ++ q) → ∃ k ≤ xs.length, ∃ e t, Codec.encList F.bundle (xs.take k) = some e ∧
      p = e ++ t ∧ (t ≠ [] → F.bundle.dec t = none)
  | [], p, q, h => by
    simp only [Codec.encList, Option.some.injEq, List.nil_eq, List.append_eq_nil_iff] at h
    exact ⟨0, by simp, [], [], rfl, by simp [h.1], by simp⟩
  | b :: xs, p, q, h => by
    simp only [Codec.encList, Option.bind_eq_bind, Option.pure_def, Option.bind_eq_some_iff, Option.some.injEq] at h
    obtain ⟨x, hx, y, hy, h⟩ := h
    rcases List.append_eq_append_iff.1 h with ⟨p', rfl, rfl⟩ | ⟨t, rfl, rfl⟩
    · obtain ⟨k, hk, e, t, he, rfl, ht⟩ := cut hl hs hy
      exact ⟨k + 1, by simpa using hk, x ++ e, t, by simp [Codec.encList, hx, he], by simp, ht⟩
    · by_cases h0 : t = []
      · subst h0
        refine ⟨1, by simp, p, [], ?_, by simp, by simp⟩
        simpa [Codec.encList] using hx
      · refine ⟨0, by simp, [], p, rfl, rfl, fun _ => ?_⟩
        cases hd : F.bundle.dec p with
        | none => rfl
        | some a =>
          obtain ⟨a, rest⟩ := a
          obtain ⟨e, rfl, he⟩ := hs _ _ _ hd
          have h1 := hl b _ hx []
          rw [List.append_nil, List.append_assoc, he] at h1
          simp [h0] at h1

/-- A file continuing with something that is no bundle fails there. -/
theorem file_fails (hl : F.Lawful) {xs : List (OperationSeals Seal)} {e t : Bytes}
    (h : Codec.encList F.bundle xs = some e) (h0 : t ≠ []) (ht : F.bundle.dec t = none) :
    FailsAfter (Seal := Seal) (File.mk (F := F) (e ++ t)) xs () :=
  ⟨_, _, file_reads (lawful_bundle hl) t h, by rw [file_read h0, ht]⟩

end

/-! ## C83 -/

section
variable {Seal : Type} [LinearOrder Seal] [RgbSeal Seal] [OpHash]
variable {C : Type} [ContractApi Seal C]
variable {R : Type} [ReadOperation Seal R]
variable {F : Fields Seal}

/-- Writing bundles to a file and evaluating the file is evaluating the bundles. -/
theorem C83_saved (hl : F.Lawful) {xs : List (OperationSeals Seal)} {bytes : Bytes} (hb : Codec.encList F.bundle xs = some bytes)
    {c : C} {r : R} (hd : Delivers r xs) {o} (h : evaluate (Seal := Seal) c r = some o) :
    ∃ o', evaluate (Seal := Seal) c (File.mk (F := F) bytes) = some o' ∧
      o'.result = o.result.mapError (·.mapStream fun _ => ()) ∧ o'.world = o.world :=
  same_delivery hd (delivers_file hl hb) _ h

/-- Evaluating a file, whatever is in it, ends; the reader is asked at most once per three bytes, and once more. -/
theorem C83_terminates (hs : F.Streaming) (c : C) (bytes : Bytes) :
    ∃ o, evaluate (Seal := Seal) c (File.mk (F := F) bytes) = some o ∧ 3 * polls o.world.calls ≤ bytes.length + 3 := by
  cases h : evaluate (Seal := Seal) c (File.mk (F := F) bytes) with
  | some o =>
    refine ⟨o, rfl, ?_⟩
    obtain ⟨bs, hr⟩ := run_shape h
    obtain ⟨f, hf⟩ := hr.starts
    have := reads_length hs hf
    rw [hr.polls]
    simp only at this
    omega
  | none =>
    obtain ⟨xs, h1, ⟨f, h2⟩, _⟩ := C59_divergence.1 h (bytes.length + 1)
    have := reads_length hs h2
    simp only at this
    omega

/-- The bundles delivered by a file are those it is the encoding of, and a file is accepted exactly if
it is the encoding of a valid consignment.  So there is one file for every consignment. -/
theorem C83_accepted_iff (hl : F.Lawful) (hc : F.Canonical) (c : C) (bytes : Bytes) :
    (∀ xs, Delivers (Seal := Seal) (File.mk (F := F) bytes) xs ↔ Codec.encList F.bundle xs = some bytes) ∧
    ((∃ o, evaluate (Seal := Seal) c (File.mk (F := F) bytes) = some o ∧ o.result = .ok ()) ↔
      ∃ xs, Codec.encList F.bundle xs = some bytes ∧ ValidConsignment c xs) := by
  have key : ∀ xs, Delivers (Seal := Seal) (File.mk (F := F) bytes) xs ↔ Codec.encList F.bundle xs = some bytes := by
    refine fun xs => ⟨?_, delivers_file hl⟩
    rintro ⟨f, g, h1, h2⟩
    obtain ⟨e, he, hb⟩ := reads_file (canonical_bundle hc) h1
    have : f.left = [] := by
      by_contra hne
      rw [show f = ⟨f.left⟩ from rfl, file_read hne] at h2
      cases hd : F.bundle.dec f.left <;> rw [hd] at h2 <;> simp at h2
    rw [this, List.append_nil] at hb
    rw [he, ← hb]
  refine ⟨key, ?_, ?_⟩
  · rintro ⟨o, h1, h2⟩
    obtain ⟨xs, hs⟩ := run_shape h1
    obtain ⟨_, _, _, _, h3⟩ := hs.stop
    rcases h3 with ⟨_, _, r₁, h4, h5⟩ | ⟨e, h0, _⟩ | ⟨b, e, h0, _⟩
    · exact ⟨xs, (key xs).1 ⟨_, _, h4, h5⟩, hs.valid⟩
    · rw [h2] at h0; cases h0
    · rw [h2] at h0; cases h0
  · rintro ⟨xs, h1, h2⟩
    obtain ⟨o, k1, k2, _⟩ := evaluate_of_delivers (delivers_file hl h1) h2
    exact ⟨o, k1, k2⟩

/-- An accepted file cut short anywhere: the effects are those of the bundles before the cut, and the
evaluation succeeds exactly if the cut falls between two bundles; otherwise the decoder fails. -/
theorem C83_truncated (hl : F.Lawful) (hs : F.Streaming) {c : C} {p q : Bytes} {xs : List (OperationSeals Seal)} {o}
    (hb : Codec.encList F.bundle xs = some (p ++ q)) (h : Accepted c (File.mk (F := F) (p ++ q)) xs o) :
    ∃ k ≤ xs.length, ∃ o', evaluate (Seal := Seal) c (File.mk (F := F) p) = some o' ∧
      StartsWith (Seal := Seal) (File.mk (F := F) p) (xs.take k) ∧
      ((o'.result = .ok () ∧ Codec.encList F.bundle (xs.take k) = some p) ∨
        (o'.result = .error (.stream ()) ∧ ∀ j, Codec.encList F.bundle (xs.take j) ≠ some p)) ∧
      ∀ {R : Type} [ReadOperation Seal R] (r : R), Delivers r (xs.take k) →
        ∃ o₁, Accepted c r (xs.take k) o₁ ∧ o₁.world = o'.world := by
  obtain ⟨k, hk, e, t, he, rfl, ht⟩ := cut (lawful_bundle hl) (streaming_bundle hs) hb
  have hv : ValidConsignment c (xs.take k) := by
    have := h.valid
    rw [← List.take_append_drop k xs] at this
    exact this.prefix
  refine ⟨k, hk, ?_⟩
  by_cases h0 : t = []
  · subst h0
    rw [List.append_nil]
    have hd := delivers_file hl he
    obtain ⟨o', k1, k2, k3⟩ := evaluate_of_delivers hd hv
    refine ⟨o', k1, k3.starts, .inl ⟨k2, he⟩, fun r hr => ?_⟩
    obtain ⟨o₁, a1, a2, a3⟩ := evaluate_of_delivers hr hv
    exact ⟨o₁, ⟨a1, a2, hr⟩, a3.calls_eq k3 (.inl a2) (.inl k2)⟩
  · have hf := file_fails hl he h0 (ht h0)
    obtain ⟨o', k1, k2, k3⟩ := evaluate_of_fails hf hv
    refine ⟨o', k1, k3.starts, .inr ⟨k2, fun j hj => ?_⟩, fun r hr => ?_⟩
    · obtain ⟨o₂, b1, b2, _⟩ := evaluate_of_delivers (c := c) (delivers_file hl hj) (by
        have := h.valid
        rw [← List.take_append_drop j xs] at this
        exact this.prefix)
      rw [k1] at b1
      cases b1
      rw [k2] at b2
      cases b2
    · obtain ⟨o₁, a1, a2, a3⟩ := evaluate_of_delivers hr hv
      exact ⟨o₁, ⟨a1, a2, hr⟩, a3.calls_eq k3 (.inl a2) (.inr ⟨_, k2⟩)⟩

/-- Something that is no bundle after an accepted consignment: the evaluation fails, and has the
effects of the consignment all the same. -/
theorem C83_trailing (hl : F.Lawful) {c : C} {e t : Bytes} {xs : List (OperationSeals Seal)}
    (hb : Codec.encList F.bundle xs = some e) (h0 : t ≠ []) (ht : F.bundle.dec t = none) {r : R} {o} (h : Accepted c r xs o) :
    ∃ o', evaluate (Seal := Seal) c (File.mk (F := F) (e ++ t)) = some o' ∧ o'.result = .error (.stream ()) ∧
      o'.world = o.world := by
  obtain ⟨o', k1, k2, k3⟩ := evaluate_of_fails (file_fails hl hb h0 ht) h.valid
  exact ⟨o', k1, k2, k3.calls_eq h.shape (.inr ⟨_, k2⟩) (.inl h.ok)⟩

/-- A file can be evaluated as far as it has arrived: once it is complete, evaluating it on the
contract reached before succeeds and ends with a contract giving the same answers as evaluating it
only once it was complete, no operation being applied twice. -/
theorem C83_resumed (hl : F.Lawful) (hs : F.Streaming) (hlaw : Lawful Seal C) {S : C → C → Prop}
    (hS : ReportBlind (Seal := Seal) S) {c : C} (hf : Faithful (ContractApi.codex Seal c)) {p q : Bytes}
    {xs : List (OperationSeals Seal)} {o} (hb : Codec.encList F.bundle xs = some (p ++ q))
    (h : Accepted c (File.mk (F := F) (p ++ q)) xs o) (h0 : ∀ b, xs[0]? = some b → KnownStart c b) {o'}
    (h' : evaluate (Seal := Seal) c (File.mk (F := F) p) = some o') :
    ∃ o₁, evaluate (Seal := Seal) o'.world.contract (File.mk (F := F) (p ++ q)) = some o₁ ∧ o₁.result = .ok () ∧
      S o₁.world.contract o.world.contract ∧
      o'.world.calls.filterMap appliedOperation ++ o₁.world.calls.filterMap appliedOperation =
        o.world.calls.filterMap appliedOperation := by
  obtain ⟨k, hk, o₂, k1, k2, _, k4⟩ := C83_truncated hl hs hb h
  rw [h'] at k1
  cases k1
  obtain ⟨e₁, he₁⟩ : ∃ e₁, Codec.encList F.bundle (xs.take k) = some e₁ := by
    refine Option.isSome_iff_exists.1 ((Codec.encList_isSome _).2 fun a ha => ?_)
    exact (Codec.encList_isSome _).1 (by rw [hb]; rfl) a (List.mem_of_mem_take ha)
  obtain ⟨o₁, a1, a2⟩ := k4 (File.mk (F := F) e₁) (delivers_file hl he₁)
  have hst : StartsWith (Seal := Seal) (File.mk (F := F) (p ++ q)) (xs.take k) := by
    obtain ⟨f, _, hf, _⟩ := h.delivers
    rw [← List.take_append_drop k xs] at hf
    obtain ⟨w, hw, _⟩ := hf.split
    exact ⟨w, hw⟩
  have hrel := C62_incremental hlaw hS hf a1 (fun b hb' => h0 b (by
    rw [List.getElem?_take] at hb'
    split at hb'
    · exact hb'
    · cases hb')) hst
  rw [a2, h.run] at hrel
  cases hE : evaluate (Seal := Seal) o'.world.contract (File.mk (F := F) (p ++ q)) with
  | none => rw [hE] at hrel; cases hrel
  | some o₃ =>
    rw [hE] at hrel
    cases hrel with
    | some hrel => exact ⟨o₃, rfl, hrel.1.trans h.ok, hrel.2.2.1, hrel.2.2.2⟩

end

namespace Demo

theorem table_streaming {α : Type} [DecidableEq α] {l : List α} : (table l).Streaming := by
  intro bytes a rest hd
  cases bytes with
  | nil => simp [table] at hd
  | cons i bytes =>
    simp only [table, Option.map_eq_some_iff, Prod.mk.injEq] at hd
    obtain ⟨a', ha, rfl, rfl⟩ := hd
    exact ⟨[i], rfl, fun rest' => by simp [table, ha]⟩

/-- The toy codecs. -/
def fields : Fields Nat := ⟨ascending, opCodec, defCodec, pubCodec, cliCodec⟩

theorem fields_lawful : fields.Lawful :=
  have ho : opCodec.Lawful := table_lawful (by decide)
  have hd : defCodec.Lawful := table_lawful (by decide)
  have hp : pubCodec.Lawful := table_lawful (by decide)
  have hc : cliCodec.Lawful := table_lawful (by decide)
  ⟨fun m => decide_eq_true m.sorted, ho, hd, hp, hc⟩

theorem fields_streaming : fields.Streaming :=
  have ho : opCodec.Streaming := table_streaming
  have hd : defCodec.Streaming := table_streaming
  have hp : pubCodec.Streaming := table_streaming
  have hc : cliCodec.Streaming := table_streaming
  ⟨ho, hd, hp, hc⟩

theorem fields_canonical : fields.Canonical :=
  have ho : opCodec.Canonical := table_canonical (by decide +kernel)
  have hd : defCodec.Canonical := table_canonical (by decide +kernel)
  have hp : pubCodec.Canonical := table_canonical (by decide +kernel)
  have hc : cliCodec.Canonical := table_canonical (by decide +kernel)
  ⟨fun l hl => ⟨⟨l, of_decide_eq_true hl⟩, rfl⟩, ho, hd, hp, hc⟩

/-- The file of a genesis and a transfer. -/
def saved : Bytes := [0, 3, 0, 0, 0, 0, 1, 0, 1, 2, 0, 2, 0] ++ [1, 1, 0, 0, 0, 3, 1, 0, 0]

theorem saved_eq : Codec.encList fields.bundle [genesis, transfer1] = some saved := rfl

/-- A file cut in the middle of the second bundle, one cut between them, and one with a byte added. -/
example : fields.Lawful ∧ fields.Streaming ∧ fields.Canonical ∧
    Codec.encList fields.bundle [genesis, transfer1] = some (saved.take 20 ++ saved.drop 20) ∧
    Codec.encList fields.bundle [genesis, transfer1] = some (saved.take 13 ++ saved.drop 13) ∧
    fields.bundle.dec [7] = none ∧
    (∃ o, Accepted ledger (File.mk (F := fields) saved) [genesis, transfer1] o) ∧
    Delivers (Seal := Nat) (Tape.mk [genesis, transfer1] none) [genesis, transfer1] ∧
    (∃ o, evaluate (Seal := Nat) ledger (File.mk (F := fields) (saved.take 20)) = some o ∧ o.result = .error (.stream ())) ∧
    (∃ o, evaluate (Seal := Nat) ledger (File.mk (F := fields) (saved.take 13)) = some o ∧ o.result = .ok ()) ∧
    Lawful Nat Ledger ∧ ReportBlind (Seal := Nat) sameBooks ∧ Faithful (ContractApi.codex Nat ledger) ∧
    (∀ b, [genesis, transfer1][0]? = some b → KnownStart ledger b) := by
  have hv : ValidConsignment ledger [genesis, transfer1] := ValidConsignment.prefix (ys := [transfer2]) story_run.choose_spec.valid
  have hd := delivers_file fields_lawful saved_eq
  obtain ⟨o, h1, h2, _⟩ := evaluate_of_delivers hd hv
  obtain ⟨o₁, k1, k2, _⟩ := evaluate_of_fails (file_fails (xs := [genesis]) (e := saved.take 13) (t := (saved.drop 13).take 7)
    fields_lawful rfl (by decide) rfl) (ValidConsignment.prefix (ys := [transfer1]) hv)
  obtain ⟨o₂, l1, l2, _⟩ := evaluate_of_delivers (delivers_file (xs := [genesis]) (bytes := saved.take 13) fields_lawful rfl)
    (ValidConsignment.prefix (ys := [transfer1]) hv)
  exact ⟨fields_lawful, fields_streaming, fields_canonical, rfl, rfl, rfl, ⟨o, h1, h2, hd⟩, tape_delivers _,
    ⟨o₁, k1, k2⟩, ⟨o₂, l1, l2⟩, ledger_lawful, sameBooks_blind, codex_faithful, fun b hb => by
      simp only [List.getElem?_cons_zero, Option.some.injEq] at hb
      subst hb
      rfl⟩

end Demo

end Rgb
