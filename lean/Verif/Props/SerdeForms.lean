import Verif.Props.Serde
import Verif.Props.ConsoleObjects

/-!
# C97: the forms in which a stored object is accepted

Under the default `serde` feature the reader of a structure accepts its fields in any order, with numbers or names as keys,
with additional entries, and also as a bare sequence. All of these give the same object. The reverse fails: nothing in the
bytes says what kind of object they hold, so an object of one kind is accepted as an object of another kind.
-/

namespace Rabe

open Serde

/-! ## Arrangements of the fields of a structure -/

/-- The key stands for field number `i` of a structure with these field names: the number, the name or the bytes of the
name. -/
def IsKey (names : List Str) (k : SVal) (i : ℕ) : Prop :=
  ∃ h : i < names.length, k = .nat i ∨ k = .text names[i] ∨ k = .bytes (utf8 names[i])

/-- The key is a number, a text or bytes, but stands for no field. -/
def Foreign (names : List Str) (k : SVal) : Prop :=
  (∃ i, names.length ≤ i ∧ k = .nat i) ∨ (∃ s, s ∉ names ∧ k = .text s) ∨ ∃ b, (∀ n ∈ names, utf8 n ≠ b) ∧ k = .bytes b

/-- The entries of a map, keys and values in turn. -/
def flat (ps : List (SVal × SVal)) : List SVal := ps.flatMap fun p => [p.1, p.2]

/-- The entries give every field at most one value, and say nothing that is neither a field nor foreign. -/
def Tidy (names : List Str) (ps : List (SVal × SVal)) : Prop :=
  (∀ p ∈ ps, Foreign names p.1 ∨ ∃ i, IsKey names p.1 i) ∧ ps.Pairwise fun p q => ¬ ∃ i, IsKey names p.1 i ∧ IsKey names q.1 i

/-- The entries give exactly these values to the fields. -/
def Arranges (names : List Str) (vals : List (Option SVal)) (ps : List (SVal × SVal)) : Prop :=
  Tidy names ps ∧ vals.length = names.length ∧ ∀ (i : ℕ) (v : SVal), vals[i]? = some (some v) ↔ ∃ p ∈ ps, IsKey names p.1 i ∧ p.2 = v

theorem findIdx_name {names : List Str} (hn : names.Nodup) (p : Str → Bool) (s : Str) (hp : ∀ n, p n = true ↔ n = s) (i : ℕ) :
    names.findIdx? p = some i ↔ ∃ h : i < names.length, names[i] = s := by
  rw [List.findIdx?_eq_some_iff_getElem]
  constructor
  · rintro ⟨h, h1, -⟩
    exact ⟨h, (hp _).1 h1⟩
  · rintro ⟨h, h1⟩
    refine ⟨h, (hp _).2 h1, fun j hj hc => ?_⟩
    have : names[j] = names[i] := ((hp _).1 hc).trans h1.symm
    have := (List.Nodup.getElem_inj_iff hn).1 this
    omega

theorem fieldOf_key {names : List Str} (hn : names.Nodup) (k : SVal) (i : ℕ) :
    fieldOf names k = some (some i) ↔ IsKey names k i := by
  unfold IsKey
  cases k with
  | nat j =>
    simp only [fieldOf, Option.some.injEq, SVal.nat.injEq, reduceCtorEq, or_false]
    constructor
    · intro h
      split_ifs at h with hj
      cases h
      exact ⟨hj, rfl⟩
    · rintro ⟨h, rfl⟩
      rw [if_pos h]
  | text s =>
    simp only [fieldOf, Option.some.injEq, SVal.text.injEq, reduceCtorEq, or_false, false_or]
    rw [findIdx_name hn _ s (by simp)]
    simp [eq_comm]
  | bytes b =>
    simp only [fieldOf, Option.some.injEq, SVal.bytes.injEq, reduceCtorEq, false_or]
    constructor
    · intro h
      obtain ⟨h1, h2, -⟩ := List.findIdx?_eq_some_iff_getElem.1 h
      exact ⟨h1, (by simpa using h2 : utf8 names[i] = b).symm⟩
    · rintro ⟨h, rfl⟩
      exact (findIdx_name hn _ names[i] (fun n => by
        simp only [beq_iff_eq]
        exact ⟨utf8_inj, fun h => by rw [h]⟩) i).2 ⟨h, rfl⟩
  | neg => simp [fieldOf]
  | seq => simp [fieldOf]
  | map => simp [fieldOf]
  | bool => simp [fieldOf]
  | null => simp [fieldOf]

theorem fieldOf_foreign (names : List Str) (k : SVal) : fieldOf names k = some none ↔ Foreign names k := by
  unfold Foreign
  cases k with
  | nat j => simp [fieldOf]
  | text s => simp [fieldOf]; grind
  | bytes b => simp [fieldOf]
  | neg => simp [fieldOf]
  | seq => simp [fieldOf]
  | map => simp [fieldOf]
  | bool => simp [fieldOf]
  | null => simp [fieldOf]

theorem isKey_inj {names : List Str} (hn : names.Nodup) {k : SVal} {i j : ℕ} (hi : IsKey names k i) (hj : IsKey names k j) :
    i = j := by
  have h1 := (fieldOf_key hn k i).2 hi
  have h2 := (fieldOf_key hn k j).2 hj
  rw [h1] at h2
  cases h2
  rfl

theorem foreign_not_key {names : List Str} (hn : names.Nodup) {k : SVal} {i : ℕ} (hf : Foreign names k) : ¬ IsKey names k i := by
  intro h
  have h1 := (fieldOf_key hn k i).2 h
  rw [(fieldOf_foreign names k).2 hf] at h1
  cases h1

/-- Collecting the entries, with some fields found already. -/
theorem collect_iff {names : List Str} (hn : names.Nodup) : ∀ (ps : List (SVal × SVal)) (acc fs : List (Option SVal)),
    acc.length = names.length → (collect names (flat ps) acc = some fs ↔
      Tidy names ps ∧ (∀ p ∈ ps, ∀ i v, IsKey names p.1 i → acc[i]? ≠ some (some v)) ∧ fs.length = names.length ∧
      ∀ (i : ℕ) (v : SVal), fs[i]? = some (some v) ↔ acc[i]? = some (some v) ∨ ∃ p ∈ ps, IsKey names p.1 i ∧ p.2 = v)
  | [], acc, fs, ha => by
    simp only [flat, List.flatMap_nil, collect, Option.some.injEq, Tidy, List.not_mem_nil, false_imp_iff, implies_true,
      List.Pairwise.nil, and_self, true_and, false_and, exists_false, or_false]
    constructor
    · rintro rfl
      exact ⟨ha, fun _ _ => Iff.rfl⟩
    · rintro ⟨h1, h2⟩
      refine List.ext_getElem (by omega) fun i hi hj => ?_
      have := h2 i
      rw [List.getElem?_eq_getElem hi, List.getElem?_eq_getElem hj] at this
      cases hx : acc[i] with
      | some v =>
        exact (Option.some.inj ((this v).2 (by rw [hx]))).symm
      | none =>
        cases hy : fs[i] with
        | none => rfl
        | some v =>
          have := (this v).1 (by rw [hy])
          rw [hx] at this
          cases this
  | (k, v) :: ps, acc, fs, ha => by
    have hflat : flat ((k, v) :: ps) = k :: v :: flat ps := rfl
    rw [hflat, collect]
    cases hk : fieldOf names k with
    | none =>
      refine ⟨(fun h => nomatch h), fun ⟨⟨h, _⟩, _⟩ => ?_⟩
      rcases h (k, v) (by simp) with hf | ⟨i, hi⟩
      · rw [(fieldOf_foreign names k).2 hf] at hk; cases hk
      · rw [(fieldOf_key hn k i).2 hi] at hk; cases hk
    | some o =>
      cases o with
      | none =>
        have hf := (fieldOf_foreign names k).1 hk
        show collect names (flat ps) acc = some fs ↔ _
        rw [collect_iff hn ps acc fs ha]
        have hnk : ∀ i, ¬ IsKey names k i := fun i => foreign_not_key hn hf
        simp only [Tidy, List.mem_cons, forall_eq_or_imp, List.pairwise_cons, hf, true_or, hnk, false_and, exists_false,
          not_false_eq_true, implies_true, true_and, exists_eq_or_imp, false_or, false_imp_iff]
      | some i =>
        have hi := (fieldOf_key hn k i).1 hk
        have hil : i < acc.length := by
          obtain ⟨h, -⟩ := hi
          omega
        have huniq : ∀ j, IsKey names k j ↔ j = i := fun j => ⟨fun h => isKey_inj hn h hi, fun h => h ▸ hi⟩
        dsimp only
        cases hx : acc[i] with
        | some w =>
          rw [List.getElem?_eq_getElem hil, hx]
          refine ⟨(fun h => nomatch h), fun ⟨_, h, _⟩ => ?_⟩
          exact absurd (by rw [List.getElem?_eq_getElem hil, hx]) (h (k, v) (by simp) i w hi)
        | none =>
          rw [List.getElem?_eq_getElem hil, hx]
          show collect names (flat ps) (acc.set i (some v)) = some fs ↔ _
          rw [collect_iff hn ps _ fs (by simpa using ha)]
          have hset : ∀ (j : ℕ) (w : SVal), (acc.set i (some v))[j]? = some (some w) ↔
              (j = i ∧ w = v) ∨ acc[j]? = some (some w) := by
            intro j w
            by_cases hj : i = j
            · subst hj
              rw [List.getElem?_set_self hil, List.getElem?_eq_getElem hil, hx]
              simp [eq_comm]
            · rw [List.getElem?_set_ne hj]
              simp only [Ne.symm hj, false_and, false_or]
          constructor
          · rintro ⟨⟨h1, h2⟩, h3, h4, h5⟩
            refine ⟨⟨?_, ?_⟩, ?_, h4, ?_⟩
            · intro p hp
              rcases List.mem_cons.1 hp with rfl | hp
              · exact .inr ⟨i, hi⟩
              · exact h1 p hp
            · refine List.pairwise_cons.2 ⟨fun q hq ⟨j, hj, hj'⟩ => ?_, h2⟩
              obtain rfl := (huniq j).1 hj
              exact h3 q hq j v hj' ((hset j v).2 (.inl ⟨rfl, rfl⟩))
            · intro p hp j w hj
              rcases List.mem_cons.1 hp with rfl | hp
              · obtain rfl := (huniq j).1 hj
                rw [List.getElem?_eq_getElem hil, hx]
                simp
              · exact fun hc => h3 p hp j w hj ((hset j w).2 (.inr hc))
            · intro j w
              rw [h5, hset]
              simp only [List.mem_cons, exists_eq_or_imp, huniq]
              grind
          · rintro ⟨⟨h1, h2⟩, h3, h4, h5⟩
            obtain ⟨h6, h7⟩ := List.pairwise_cons.1 h2
            refine ⟨⟨fun p hp => h1 p (List.mem_cons_of_mem _ hp), h7⟩, ?_, h4, ?_⟩
            · intro p hp j w hj hc
              rcases (hset j w).1 hc with ⟨rfl, rfl⟩ | hc
              · exact h6 p hp ⟨j, hi, hj⟩
              · exact h3 p (List.mem_cons_of_mem _ hp) j w hj hc
            · intro j w
              rw [h5, hset]
              simp only [List.mem_cons, exists_eq_or_imp, huniq]
              grind

/-- **C97, the fields.** Exactly which maps are taken for a structure with these field names, and with which values. -/
theorem C97_fields {names : List Str} (hn : names.Nodup) (ps : List (SVal × SVal)) (fs : List (Option SVal)) :
    readStruct names (.map (flat ps)) = some fs ↔ Arranges names fs ps := by
  show collect names (flat ps) (names.map fun _ => none) = some fs ↔ _
  rw [collect_iff hn ps _ fs (by simp)]
  have : ∀ (i : ℕ) (v : SVal), (names.map fun _ => (none : Option SVal))[i]? ≠ some (some v) := by
    intro i v
    rw [List.getElem?_map]
    cases names[i]? <;> simp
  simp only [this, Arranges, false_or, ne_eq, not_false_eq_true, implies_true, true_and]

/-- The entries as the format writes them: numbered (`packed`) or named, in the order of the declaration, without the
fields that are skipped. -/
def inOrder (packed : Bool) (names : List Str) (vals : List (Option SVal)) : List (SVal × SVal) :=
  (names.zip vals).zipIdx.filterMap fun x => x.1.2.map fun v => (if packed then .nat x.2 else .text x.1.1, v)

theorem entries_inOrder (packed : Bool) : ∀ (ns : List Str) (k : ℕ) (vals : List (Option SVal)),
    entries packed ns k vals = flat (((ns.zip vals).zipIdx k).filterMap fun x => x.1.2.map fun v =>
      (if packed then .nat x.2 else .text x.1.1, v))
  | [], _, vals => by cases vals <;> rfl
  | _ :: _, _, [] => rfl
  | n :: ns, k, some v :: vals => by
    rw [entries, entries_inOrder packed ns (k + 1) vals]
    simp [flat]
  | n :: ns, k, none :: vals => by
    rw [entries, entries_inOrder packed ns (k + 1) vals]
    simp

/-- What the format writes gives every field its value. -/
theorem arranges_inOrder (packed : Bool) {names : List Str} (hn : names.Nodup) {vals : List (Option SVal)}
    (h : vals.length = names.length) : Arranges names vals (inOrder packed names vals) := by
  rw [← C97_fields hn, inOrder, ← entries_inOrder]
  exact collect_entries packed names hn names [] [] vals rfl rfl h

/-! ## Types -/

/-- How the reader of a structure with these field names treats its input: only the values of the fields matter, not the
order or the spelling of the keys, nor further entries (`same`, `bare`); the writer gives each field its value in the order
of the declaration (`written`); an entry that is neither a field nor foreign, a field given twice, and a missing field, except
an optional one, are refused (`refused`, `short`), and so is everything that is neither map nor sequence (`other`). -/
structure Arrangeable (α : Type) [Serde α] (names : List Str) (optional : List ℕ := []) : Prop where
  same : ∀ vals ps qs, Arranges names vals ps → Arranges names vals qs →
    (ofVal (.map (flat ps)) : Option α) = ofVal (.map (flat qs))
  bare : ∀ l ps, Arranges names (l.map some) ps → (ofVal (.seq l) : Option α) = ofVal (.map (flat ps))
  written : ∀ packed (x : α), ∃ vals, Arranges names vals (inOrder packed names vals) ∧
    toVal packed x = .map (flat (inOrder packed names vals))
  refused : ∀ ps, (ofVal (.map (flat ps)) : Option α) ≠ none → Tidy names ps ∧
    ∀ i < names.length, i ∉ optional → ∃ p ∈ ps, IsKey names p.1 i
  short : ∀ l, (ofVal (.seq l) : Option α) ≠ none → l.length = names.length
  other : ∀ v, (∀ l, v ≠ .map l) → (∀ l, v ≠ .seq l) → (ofVal v : Option α) = none

/-- A missing field of this type is an error: a parameter for the types of `rabe_bn`. -/
class Required (α : Type) [Serde α] : Prop where
  none : (Serde.missing : Option α) = .none

/-- Which fields may be missing. -/
class RowNeeds (α : Type) [Row α] where
  opt : List Bool
  need : ∀ l : List (Option SVal), (Row.read l : Option α) ≠ none → ∀ i : ℕ, l[i]? = some none → opt[i]? = some true

instance : RowNeeds Unit where
  opt := []
  need
    | [], _, i, h => by simp at h
    | _ :: _, h, _, _ => absurd rfl h

theorem row_read_cons {α β : Type} [Serde α] [Row β] (o : Option SVal) (r : List (Option SVal)) :
    (Row.read (o :: r) : Option (α × β)) = (match o with
      | some v => ofVal v
      | none => missing).bind fun a => (Row.read r).map fun b => (a, b) := rfl

instance {α β : Type} [Serde α] [Required α] [Row β] [RowNeeds β] : RowNeeds (α × β) where
  opt := false :: RowNeeds.opt β
  need
    | [], h, _, _ => absurd rfl h
    | o :: r, h, i, hi => by
      rw [row_read_cons] at h
      cases o with
      | none => rw [Required.none] at h; exact absurd rfl h
      | some v =>
        cases i with
        | zero => cases hi
        | succ i =>
          refine RowNeeds.need r (fun hr => h ?_) i hi
          rw [hr]
          show ((ofVal v : Option α).bind fun _ => none) = none
          cases (ofVal v : Option α) <;> rfl

theorem row_read_skip {α β : Type} [Serde α] [Row β] (o : Option SVal) (r : List (Option SVal)) :
    (Row.read (o :: r) : Option (SkipNone α × β)) = (match o with
      | some v => (ofVal v : Option (Option α))
      | none => missing).bind fun a => (Row.read r).map fun b => (⟨a⟩, b) := rfl

instance {α β : Type} [Serde α] [Row β] [RowNeeds β] : RowNeeds (SkipNone α × β) where
  opt := true :: RowNeeds.opt β
  need
    | [], h, _, _ => absurd rfl h
    | o :: r, h, i, hi => by
      rw [row_read_skip] at h
      cases i with
      | zero => rfl
      | succ i =>
        refine RowNeeds.need r (fun hr => h ?_) i hi
        rw [hr]
        cases (match o with
          | some v => (ofVal v : Option (Option α))
          | none => missing) <;> rfl

theorem Arrangeable.structOf {α β : Type} [Row α] [RowNeeds α] (names : List Str) (out : β → α) (back : α → β)
    (optional : List ℕ) (hn : names.Nodup) (hl : ∀ packed (y : α), (Row.vals packed y).length = names.length)
    (ho : ∀ i < names.length, (RowNeeds.opt α)[i]? = some true → i ∈ optional) :
    @Arrangeable β (Serde.structOf names out back) names optional := by
  let _ : Serde β := Serde.structOf names out back
  have hread : ∀ vals ps, Arranges names vals ps → (ofVal (.map (flat ps)) : Option β) = (Row.read vals).map back := by
    intro vals ps h
    show (readStruct names (.map (flat ps))).bind _ = _
    rw [(C97_fields hn ps vals).2 h]
    rfl
  refine @Arrangeable.mk β _ names optional ?_ ?_ ?_ ?_ ?_ ?_
  · intro vals ps qs hp hq
    rw [hread vals ps hp, hread vals qs hq]
  · intro l ps hp
    rw [hread _ ps hp]
    have hlen : l.length = names.length := by simpa using hp.2.1
    show (if l.length = names.length then some (l.map some) else none).bind _ = _
    rw [if_pos hlen]
    rfl
  · intro packed x
    refine ⟨Row.vals packed (out x), arranges_inOrder packed hn (hl _ _), ?_⟩
    show SVal.map (entries packed names 0 (Row.vals packed (out x))) = _
    rw [entries_inOrder]
    rfl
  · intro ps h
    cases hr : readStruct names (.map (flat ps)) with
    | none =>
      refine absurd ?_ h
      show (readStruct names (.map (flat ps))).bind _ = _
      rw [hr]
      rfl
    | some vals =>
      have ha := (C97_fields hn ps vals).1 hr
      refine ⟨ha.1, fun i hi hio => ?_⟩
      have hi' : i < vals.length := by rw [ha.2.1]; exact hi
      cases hv : vals[i] with
      | some v =>
        obtain ⟨p, hp, hk, -⟩ := (ha.2.2 i v).1 (by rw [List.getElem?_eq_getElem hi', hv])
        exact ⟨p, hp, hk⟩
      | none =>
        refine absurd (ho i hi (RowNeeds.need vals (fun hc => h ?_) i (by rw [List.getElem?_eq_getElem hi', hv]))) hio
        rw [hread vals ps ha, hc]
        rfl
  · intro l h
    by_contra hc
    refine h ?_
    show (if l.length = names.length then some (l.map some) else none).bind _ = _
    rw [if_neg hc]
    rfl
  · intro v h1 h2
    cases v with
    | map l => exact absurd rfl (h1 l)
    | seq l => exact absurd rfl (h2 l)
    | _ => rfl

/-- **C97, values.** Whatever the order and the spelling of the keys and whatever foreign entries there are, a written value
is read back; the bare sequence of its fields too, if none is skipped. -/
theorem C97_value {α : Type} [Serde α] [SerdeLaw α] {names : List Str} {optional : List ℕ} (h : Arrangeable α names optional)
    (packed : Bool) (x : α) : ∃ vals, toVal packed x = .map (flat (inOrder packed names vals)) ∧
      (∀ ps, Arranges names vals ps → ofVal (.map (flat ps)) = some x) ∧
      ∀ l : List SVal, vals = l.map some → ofVal (.seq l) = some x := by
  obtain ⟨vals, ha, hv⟩ := h.written packed x
  have hx : ofVal (.map (flat (inOrder packed names vals))) = some x := by rw [← hv, SerdeLaw.ofVal_toVal]
  refine ⟨vals, hv, fun ps hp => by rw [h.same vals ps _ hp ha, hx], ?_⟩
  rintro l rfl
  rw [h.bare l _ ha, hx]

/-- **C97, bytes.** What the reader makes of bytes is what it makes of the value they encode, up to 127 levels. -/
theorem C97_bytes {α : Type} [Serde α] (v : SVal) (hv : Fits 127 v) (bs : Bytes) (h : enc v = some bs) :
    fromSlice α bs = ofVal v := by
  have := parse_enc hv bs [] h
  rw [List.append_nil] at this
  simp [fromSlice, this]

section

variable {F G1 G2 Gt : Type} [Serde F] [Serde G1] [Serde G2] [Serde Gt]
  [Required F] [Required G1] [Required G2] [Required Gt]

instance : Required UInt8 := ⟨rfl⟩
instance {α : Type} [Serde α] : Required (List α) := ⟨rfl⟩
instance : Required (List Char) := ⟨rfl⟩
instance {α β : Type} [Serde α] [Serde β] : Required (α × β) := ⟨rfl⟩
instance {α β γ : Type} [Serde α] [Serde β] [Serde γ] : Required (α × β × γ) := ⟨rfl⟩
instance : Required PolicyLanguage := ⟨rfl⟩
instance : Required (Ac17.Ciphertext G1 G2 Gt) := ⟨rfl⟩
instance : Required (Ac17.SecretKey G1 G2) := ⟨rfl⟩
instance : Required (Bdabe.SecretUserKey G1 G2) := ⟨rfl⟩
instance : Required (Bdabe.PublicUserKey G1 G2) := ⟨rfl⟩
instance : Required (Ghw11.PublicKey G1 G2 Gt) := ⟨rfl⟩
instance : Required (Mke08.SecretUserKey G1 G2) := ⟨rfl⟩
instance : Required (Mke08.PublicUserKey G1 G2) := ⟨rfl⟩

macro "arranged" : term => `(Arrangeable.structOf _ _ _ _ (by decide) (fun _ _ => rfl) (by simp only [RowNeeds.opt]; decide))

omit [Required F] in
/-- **C97: AC17.** Fields as declared in `/repo/src/schemes/ac17/mod.rs`. -/
theorem C97_ac17 :
    Arrangeable (Ac17.PublicKey G1 G2 Gt) [chars% "g", chars% "h_a", chars% "e_gh_ka"] ∧
    Arrangeable (Ac17.MasterKey F G1 G2) [chars% "g", chars% "h", chars% "g_k", chars% "a", chars% "b"] ∧
    Arrangeable (Ac17.Ciphertext G1 G2 Gt) [chars% "c_0", chars% "c", chars% "c_p", chars% "ct"] ∧
    Arrangeable (Ac17.CpCiphertext G1 G2 Gt) [chars% "policy", chars% "ct"] ∧
    Arrangeable (Ac17.KpCiphertext G1 G2 Gt) [chars% "attr", chars% "ct"] ∧
    Arrangeable (Ac17.SecretKey G1 G2) [chars% "k_0", chars% "k", chars% "k_p"] ∧
    Arrangeable (Ac17.KpSecretKey G1 G2) [chars% "policy", chars% "sk"] ∧
    Arrangeable (Ac17.CpSecretKey G1 G2) [chars% "attr", chars% "sk"] :=
  ⟨arranged, arranged, arranged, arranged, arranged, arranged, arranged, arranged⟩

omit [Required F] in
/-- **C97: AW11.** Fields as declared in `/repo/src/schemes/aw11/mod.rs`. -/
theorem C97_aw11 :
    Arrangeable (Aw11.GlobalKey G1 G2) [chars% "g1", chars% "g2"] ∧
    Arrangeable (Aw11.PublicKey G2 Gt) [chars% "attr"] ∧
    Arrangeable (Aw11.MasterKey F) [chars% "attr"] ∧
    Arrangeable (Aw11.Ciphertext G2 Gt) [chars% "policy", chars% "c_0", chars% "c", chars% "ct"] ∧
    Arrangeable (Aw11.SecretKey G1) [chars% "gid", chars% "attr"] :=
  ⟨arranged, arranged, arranged, arranged, arranged⟩

/-- **C97: BDABE.** Fields as declared in `/repo/src/schemes/bdabe/mod.rs`. -/
theorem C97_bdabe :
    Arrangeable (Bdabe.PublicKey G1 G2 Gt) [chars% "g1", chars% "g2", chars% "p1", chars% "p2", chars% "e_gg_y"] ∧
    Arrangeable (Bdabe.MasterKey F) [chars% "y"] ∧
    Arrangeable (Bdabe.PublicUserKey G1 G2) [chars% "u", chars% "u1", chars% "u2"] ∧
    Arrangeable (Bdabe.SecretUserKey G1 G2) [chars% "u1", chars% "u2"] ∧
    Arrangeable (Bdabe.SecretAttributeKey G1 G2) [chars% "attr", chars% "au1", chars% "au2"] ∧
    Arrangeable (Bdabe.UserKey G1 G2) [chars% "sk", chars% "pk", chars% "sk_a"] ∧
    Arrangeable (Bdabe.PublicAttributeKey G1 G2 Gt) [chars% "attr", chars% "a1", chars% "a2", chars% "a3"] ∧
    Arrangeable (Bdabe.SecretAuthorityKey F G1 G2) [chars% "name", chars% "a1", chars% "a2", chars% "a3"] ∧
    Arrangeable (Bdabe.CiphertextTuple G1 G2 Gt) [chars% "attr", chars% "e1", chars% "e2", chars% "e3", chars% "e4", chars% "e5"] ∧
    Arrangeable (Bdabe.Ciphertext G1 G2 Gt) [chars% "policy", chars% "j", chars% "ct"] :=
  ⟨arranged, arranged, arranged, arranged, arranged, arranged, arranged, arranged, arranged, arranged⟩

/-- **C97: BSW.** Fields as declared in `/repo/src/schemes/bsw/mod.rs`. -/
theorem C97_bsw :
    Arrangeable (Bsw.PublicKey G1 G2 Gt) [chars% "g1", chars% "g2", chars% "h", chars% "f", chars% "e_gg_alpha"] ∧
    Arrangeable (Bsw.MasterKey F G2) [chars% "beta", chars% "g2_alpha"] ∧
    Arrangeable (Bsw.Attribute G1 G2) [chars% "string", chars% "g1", chars% "g2"] ∧
    Arrangeable (Bsw.Ciphertext G1 G2 Gt) [chars% "policy", chars% "c", chars% "c_p", chars% "c_y", chars% "data"] ∧
    Arrangeable (Bsw.SecretKey G1 G2) [chars% "d", chars% "d_j"] :=
  ⟨arranged, arranged, arranged, arranged, arranged⟩

/-- **C97: GHW11.** Fields as declared in `/repo/src/schemes/ghw11/mod.rs`. -/
theorem C97_ghw11 :
    Arrangeable (Ghw11.PublicKey G1 G2 Gt) [chars% "g1", chars% "g2", chars% "g1_a", chars% "g2_a", chars% "e_gg_alpha"] ∧
    Arrangeable (Ghw11.MasterKey G1 G2 Gt) [chars% "g2_alpha", chars% "pk"] ∧
    Arrangeable (Ghw11.Attribute G2) [chars% "string", chars% "k_x"] ∧
    Arrangeable (Ghw11.SecretKey G2) [chars% "k", chars% "l", chars% "attr_key"] ∧
    Arrangeable (Ghw11.TransformKey G2) [chars% "k_z", chars% "l_z", chars% "attr_key_z"] ∧
    Arrangeable (Ghw11.RetrieveKey F) [chars% "z"] ∧
    Arrangeable (Ghw11.Ciphertext G1 Gt) [chars% "policy", chars% "c", chars% "c1", chars% "ci_di", chars% "data"] ∧
    Arrangeable (Ghw11.TransformCiphertext Gt) [chars% "c", chars% "t"] :=
  ⟨arranged, arranged, arranged, arranged, arranged, arranged, arranged, arranged⟩

/-- **C97: LSW.** Fields as declared in `/repo/src/schemes/lsw/mod.rs`. -/
theorem C97_lsw :
    Arrangeable (Lsw.PublicKey G1 G2 Gt) [chars% "g1", chars% "g2", chars% "g1_b", chars% "g1_b2", chars% "h_b", chars% "e_gg_alpha"] ∧
    Arrangeable (Lsw.MasterKey F G1 G2) [chars% "alpha1", chars% "alpha2", chars% "b", chars% "h_g1", chars% "h_g2"] ∧
    Arrangeable (Lsw.SecretKey G1 G2) [chars% "policy", chars% "dj"] ∧
    Arrangeable (Lsw.Ciphertext G1 G2 Gt) [chars% "e1", chars% "e2", chars% "ej", chars% "ct"] :=
  ⟨arranged, arranged, arranged, arranged⟩

/-- **C97: MKE08.** Fields as declared in `/repo/src/schemes/mke08/mod.rs`. -/
theorem C97_mke08 :
    Arrangeable (Mke08.PublicKey G1 G2 Gt) [chars% "g1", chars% "g2", chars% "p1", chars% "p2", chars% "e_gg_y1", chars% "e_gg_y2"] ∧
    Arrangeable (Mke08.MasterKey G1 G2) [chars% "g1", chars% "g2"] ∧
    Arrangeable (Mke08.PublicUserKey G1 G2) [chars% "name", chars% "g1", chars% "g2"] ∧
    Arrangeable (Mke08.SecretUserKey G1 G2) [chars% "g1", chars% "g2"] ∧
    Arrangeable (Mke08.SecretAuthorityKey F) [chars% "name", chars% "r"] ∧
    Arrangeable (Mke08.PublicAttributeKey G1 G2 Gt) [chars% "attr", chars% "g1", chars% "g2", chars% "gt1", chars% "gt2"] ∧
    Arrangeable (Mke08.SecretAttributeKey G1 G2) [chars% "attr", chars% "g1", chars% "g2"] ∧
    Arrangeable (Mke08.UserKey G1 G2) [chars% "sk", chars% "pk", chars% "sk_a"] ∧
    Arrangeable (Mke08.CTConjunction G1 G2 Gt) [chars% "str", chars% "j1", chars% "j2", chars% "j3", chars% "j4", chars% "j5", chars% "j6"] ∧
    Arrangeable (Mke08.Ciphertext G1 G2 Gt) [chars% "policy", chars% "e", chars% "ct"] :=
  ⟨arranged, arranged, arranged, arranged, arranged, arranged, arranged, arranged, arranged, arranged⟩

/-- **C97: YCT14.** Fields as declared in `/repo/src/schemes/yct14/mod.rs`. Only `node` may be missing. -/
theorem C97_yct14 :
    Arrangeable (Yct14.Attribute F Gt) [chars% "name", chars% "node"] [1] ∧
    Arrangeable (Yct14.PublicKey F Gt) [chars% "g", chars% "attributes"] ∧
    Arrangeable (Yct14.MasterKey F Gt) [chars% "s", chars% "attributes"] ∧
    Arrangeable (Yct14.SecretKey F Gt) [chars% "policy", chars% "du"] ∧
    Arrangeable (Yct14.Ciphertext F Gt) [chars% "attributes", chars% "ct"] :=
  ⟨arranged, arranged, arranged, arranged, arranged⟩

/-! ## Values of fields -/

theorem row_read_end (l : List SVal) : (Row.read (l.map some) : Option Unit) = some () ↔ l = [] := by
  cases l <;> simp [Row.read]

theorem row_read_cell {α β : Type} [Serde α] [Row β] (l : List SVal) (a : α) (b : β) :
    (Row.read (l.map some) : Option (α × β)) = some (a, b) ↔
      ∃ u r, l = u :: r ∧ ofVal u = some a ∧ Row.read (r.map some) = some b := by
  cases l with
  | nil => simp [Row.read]
  | cons u r => simp [Row.read, Option.bind_eq_some_iff]

theorem ofVals_iff {α : Type} [Serde α] : ∀ (l : List SVal) (xs : List α),
    ofVals l = some xs ↔ List.Forall₂ (fun v x => ofVal v = some x) l xs := by
  intro l
  induction l with
  | nil => intro xs; cases xs <;> simp [ofVals]
  | cons v r ih =>
    intro xs
    cases xs with
    | nil => simp [ofVals, Option.bind_eq_some_iff]
    | cons x xs => simp [ofVals, Option.bind_eq_some_iff, ih]

/-- **C97: values of fields.** What is accepted as a byte, as a text, as a list, as a pair, as a triple and as an optional
value, and as which; everything else is refused. -/
theorem C97_values :
    (∀ (v : SVal) (b : UInt8), ofVal v = some b ↔ v = .nat b.toNat) ∧
    (∀ (v : SVal) (s : Str), ofVal v = some s ↔ v = .text s ∨ v = .bytes (utf8 s)) ∧
    (∀ (α : Type) [Serde α] (v : SVal) (xs : List α),
      ofVal v = some xs ↔ ∃ l, v = .seq l ∧ List.Forall₂ (fun u x => ofVal u = some x) l xs) ∧
    (∀ (α β : Type) [Serde α] [Serde β] (v : SVal) (a : α) (b : β),
      ofVal v = some (a, b) ↔ ∃ u w, v = .seq [u, w] ∧ ofVal u = some a ∧ ofVal w = some b) ∧
    (∀ (α β γ : Type) [Serde α] [Serde β] [Serde γ] (v : SVal) (a : α) (b : β) (c : γ), ofVal v = some (a, b, c) ↔
      ∃ u w x, v = .seq [u, w, x] ∧ ofVal u = some a ∧ ofVal w = some b ∧ ofVal x = some c) ∧
    (∀ (α : Type) [Serde α] (v : SVal) (o : Option α),
      ofVal v = some o ↔ (v = .null ∧ o = none) ∨ (v ≠ .null ∧ ∃ a, o = some a ∧ ofVal v = some a)) := by
  refine ⟨fun v b => ?_, fun v s => ?_, fun α _ v xs => ?_, fun α β _ _ v a b => ?_, fun α β γ _ _ _ v a b c => ?_,
    fun α _ v o => ?_⟩
  · cases v <;> simp only [ofVal, reduceCtorEq]
    rename_i n
    rw [SVal.nat.injEq]
    constructor
    · intro h
      split at h
      · cases h
        simp [Nat.mod_eq_of_lt, *]
      · cases h
    · rintro rfl
      rw [if_pos b.toNat_lt]
      simp
  · cases v <;> simp only [ofVal, reduceCtorEq, false_or, or_false, or_self, Option.some.injEq, SVal.text.injEq,
      SVal.bytes.injEq]
    exact ⟨fun h => (utf8_of_ofUtf8 h).symm, fun h => h ▸ ofUtf8_utf8 s⟩
  · cases v <;> simp only [ofVal, reduceCtorEq, false_and, exists_false, SVal.seq.injEq, exists_eq_left']
    exact ofVals_iff _ _
  · cases v <;> simp only [ofVal, reduceCtorEq, false_and, exists_false, SVal.seq.injEq]
    rename_i l
    rw [Option.map_eq_some_iff]
    constructor
    · rintro ⟨⟨a', b', ⟨⟩⟩, h, e⟩
      cases e
      obtain ⟨u, r, rfl, hu, h⟩ := (row_read_cell _ _ _).1 h
      obtain ⟨w, r, rfl, hw, h⟩ := (row_read_cell _ _ _).1 h
      cases (row_read_end _).1 h
      exact ⟨u, w, rfl, hu, hw⟩
    · rintro ⟨u, w, rfl, hu, hw⟩
      exact ⟨(a, b, ()), (row_read_cell _ _ _).2 ⟨u, _, rfl, hu, (row_read_cell _ _ _).2 ⟨w, _, rfl, hw, rfl⟩⟩, rfl⟩
  · cases v <;> simp only [ofVal, reduceCtorEq, false_and, exists_false, SVal.seq.injEq]
    rename_i l
    rw [Option.map_eq_some_iff]
    constructor
    · rintro ⟨⟨a', b', c', ⟨⟩⟩, h, e⟩
      cases e
      obtain ⟨u, r, rfl, hu, h⟩ := (row_read_cell _ _ _).1 h
      obtain ⟨w, r, rfl, hw, h⟩ := (row_read_cell _ _ _).1 h
      obtain ⟨x, r, rfl, hx, h⟩ := (row_read_cell _ _ _).1 h
      cases (row_read_end _).1 h
      exact ⟨u, w, x, rfl, hu, hw, hx⟩
    · rintro ⟨u, w, x, rfl, hu, hw, hx⟩
      exact ⟨(a, b, c, ()), (row_read_cell _ _ _).2 ⟨u, _, rfl, hu, (row_read_cell _ _ _).2 ⟨w, _, rfl, hw,
        (row_read_cell _ _ _).2 ⟨x, _, rfl, hx, rfl⟩⟩⟩, rfl⟩
  · by_cases hv : v = .null
    · subst hv
      simp [ofVal, eq_comm]
    · have : (ofVal v : Option (Option α)) = (ofVal v).map some := by cases v <;> first | rfl | exact absurd rfl hv
      simp [this, hv, and_comm, eq_comm]

/-- A policy with its language, read from a sequence of bytes and a number: a text may be given by its bytes. -/
example : ∃ v : SVal, v = .seq [.bytes (utf8 (chars% "\"Ä\"")), .nat 1] ∧
    (ofVal v : Option (Str × PolicyLanguage)) = some (chars% "\"Ä\"", .human) ∧
    (ofVal (.seq [.null, .nat 1]) : Option (Str × PolicyLanguage)) = none := by
  refine ⟨_, rfl, ?_, rfl⟩
  exact (C97_values.2.2.2.1 _ _ _ _ _).2 ⟨_, _, rfl, (C97_values.2.1 _ _).2 (.inr rfl), rfl⟩

/-! ## Enumerations -/

/-- **C97: the policy language.** A number, a name or the bytes of a name; alone, in a sequence, or in a map with the value
`null`. -/
theorem C97_language (v : SVal) (x : PolicyLanguage) : ofVal v = some x ↔
    ∃ k, (v = k ∨ v = .seq [k] ∨ v = .map [k, .null]) ∧
      IsKey [chars% "JsonPolicy", chars% "HumanPolicy"] k (match x with | .json => 0 | .human => 1) := by
  have hn : languageNames.Nodup := by decide
  have hv : ∀ k i, variantOf languageNames k = some i ↔ IsKey languageNames k i := by
    intro k i
    rw [← fieldOf_key hn]
    unfold variantOf
    cases fieldOf languageNames k <;> simp
  have hu : ∀ i, unitVariant languageNames v = some i ↔
      ∃ k, (v = k ∨ v = .seq [k] ∨ v = .map [k, .null]) ∧ IsKey languageNames k i := by
    intro i
    constructor
    · intro h
      unfold unitVariant at h
      split at h
      · exact ⟨_, .inr (.inr rfl), (hv _ _).1 h⟩
      · exact ⟨_, .inr (.inl rfl), (hv _ _).1 h⟩
      · exact ⟨_, .inl rfl, (hv _ _).1 h⟩
    · rintro ⟨k, rfl | rfl | rfl, hk⟩
      · obtain ⟨hi, rfl | rfl | rfl⟩ := hk <;> exact (hv _ _).2 ⟨hi, by simp⟩
      · exact (hv _ _).2 hk
      · exact (hv _ _).2 hk
  show (match unitVariant languageNames v with
    | some 0 => some .json
    | some 1 => some .human
    | _ => none) = some x ↔ _
  cases x with
  | json =>
    show _ ↔ ∃ k, _ ∧ IsKey languageNames k 0
    rw [← hu 0]
    clear hu hv
    split <;> simp_all
  | human =>
    show _ ↔ ∃ k, _ ∧ IsKey languageNames k 1
    rw [← hu 1]
    clear hu hv
    split <;> simp_all

/-- **C97: the written policy language.** -/
theorem C97_language_written (x : PolicyLanguage) : toVal true x = .nat (match x with | .json => 0 | .human => 1) ∧
    toVal false x = .text (match x with | .json => chars% "JsonPolicy" | .human => chars% "HumanPolicy") := by
  cases x <;> exact ⟨rfl, rfl⟩

omit [Required F] [Required Gt] in
/-- **C97: the nodes of YCT14.** A map or a sequence of the variant and its value. -/
theorem C97_node (v : SVal) (x : Yct14.Node F Gt) : ofVal v = some x ↔
    ∃ k w, (v = .map [k, w] ∨ v = .seq [k, w]) ∧ (match x with
      | .pub g => IsKey [chars% "Public", chars% "Private"] k 0 ∧ ofVal w = some g
      | .priv y => IsKey [chars% "Public", chars% "Private"] k 1 ∧ ofVal w = some y) := by
  have hn : nodeNames.Nodup := by decide
  have hv : ∀ k i, variantOf nodeNames k = some i ↔ IsKey nodeNames k i := by
    intro k i
    rw [← fieldOf_key hn]
    unfold variantOf
    cases fieldOf nodeNames k <;> simp
  have hu : ∀ i w, newtypeVariant nodeNames v = some (i, w) ↔
      ∃ k, (v = .map [k, w] ∨ v = .seq [k, w]) ∧ IsKey nodeNames k i := by
    intro i w
    constructor
    · intro h
      unfold newtypeVariant at h
      split at h
      · obtain ⟨j, hj, he⟩ := Option.map_eq_some_iff.1 h
        cases he
        exact ⟨_, .inl rfl, (hv _ _).1 hj⟩
      · obtain ⟨j, hj, he⟩ := Option.map_eq_some_iff.1 h
        cases he
        exact ⟨_, .inr rfl, (hv _ _).1 hj⟩
      · cases h
    · rintro ⟨k, rfl | rfl, hk⟩ <;> simp [newtypeVariant, (hv k i).2 hk]
  show (match newtypeVariant nodeNames v with
    | some (0, w) => (ofVal w).map .pub
    | some (1, w) => (ofVal w).map .priv
    | _ => none) = some x ↔ _
  cases x with
  | pub g =>
    show _ ↔ ∃ k w, _ ∧ IsKey nodeNames k 0 ∧ _
    constructor
    · intro h
      split at h
      · rename_i w hw
        obtain ⟨k, h1, h2⟩ := (hu 0 w).1 hw
        obtain ⟨a, ha, he⟩ := Option.map_eq_some_iff.1 h
        cases he
        exact ⟨k, w, h1, h2, ha⟩
      · obtain ⟨a, ha, he⟩ := Option.map_eq_some_iff.1 h
        cases he
      · cases h
    · rintro ⟨k, w, h1, h2, h3⟩
      rw [(hu 0 w).2 ⟨k, h1, h2⟩]
      simp [h3]
  | priv y =>
    show _ ↔ ∃ k w, _ ∧ IsKey nodeNames k 1 ∧ _
    constructor
    · intro h
      split at h
      · obtain ⟨a, ha, he⟩ := Option.map_eq_some_iff.1 h
        cases he
      · rename_i w hw
        obtain ⟨k, h1, h2⟩ := (hu 1 w).1 hw
        obtain ⟨a, ha, he⟩ := Option.map_eq_some_iff.1 h
        cases he
        exact ⟨k, w, h1, h2, ha⟩
      · cases h
    · rintro ⟨k, w, h1, h2, h3⟩
      rw [(hu 1 w).2 ⟨k, h1, h2⟩]
      simp [h3]

omit [Required F] [Required Gt] in
/-- **C97: the written nodes.** -/
theorem C97_node_written (g : Gt) (y : F) : (∀ packed, toVal packed (Yct14.Node.pub g : Yct14.Node F Gt) =
      .map [if packed then .nat 0 else .text (chars% "Public"), toVal packed g]) ∧
    ∀ packed, toVal packed (Yct14.Node.priv y : Yct14.Node F Gt) =
      .map [if packed then .nat 1 else .text (chars% "Private"), toVal packed y] :=
  ⟨fun packed => by cases packed <;> rfl, fun packed => by cases packed <;> rfl⟩

end

/-! ## Kinds of objects -/

/-- **C97, kinds, partial.** Written with names, an object is accepted as an object of another kind only if the fields of
that kind, except optional ones, are among its own. (What is missing: the console writes numbers, and with these this is
false, see below.) -/
theorem C97_named_partial {α β : Type} [Serde α] [Serde β] {names names' : List Str} {o o' : List ℕ}
    (ha : Arrangeable α names o) (hb : Arrangeable β names' o') (x : α) (y : β) (h : ofVal (toVal false x) = some y) :
    ∀ (i : ℕ) (hi : i < names'.length), i ∉ o' → names'[i] ∈ names := by
  intro i hi hio
  obtain ⟨vals, -, hv⟩ := ha.written false x
  rw [hv] at h
  obtain ⟨p, hp, hk⟩ := (hb.refused _ (by rw [h]; simp)).2 i hi hio
  obtain ⟨⟨⟨n, o⟩, j⟩, hz, he⟩ := List.mem_filterMap.1 hp
  obtain ⟨v, -, rfl⟩ := Option.map_eq_some_iff.1 he
  obtain ⟨_, h1 | h1 | h1⟩ := hk
  · cases h1
  · simp only [Bool.false_eq_true, if_false, SVal.text.injEq] at h1
    rw [← h1]
    have := List.fst_mem_of_mem_zipIdx hz
    exact (List.of_mem_zip this).1
  · cases h1

section

variable {F G1 G2 Gt : Type} [Serde F] [Serde G1] [Serde G2] [Serde Gt]
  [SerdeLaw F] [SerdeLaw G1] [SerdeLaw G2] [SerdeLaw Gt]

omit [SerdeLaw Gt] in
/-- **C97, violated: kinds.** An MKE08 public key is accepted as a master key, and a master key as the secret key of a user
and conversely; a BDABE public attribute key is accepted as a secret attribute key; the public key of BSW as the global key
of AW11; and an AC17 key for the attributes `p` and `HumanPolicy` as a key with the policy `p`. -/
theorem C97_violated_kinds :
    (∀ packed (x : Mke08.PublicKey G1 G2 Gt), ofVal (toVal packed x) = some (⟨x.g1, x.g2⟩ : Mke08.MasterKey G1 G2)) ∧
    (∀ packed (x : Mke08.MasterKey G1 G2), ofVal (toVal packed x) = some (⟨x.g1, x.g2⟩ : Mke08.SecretUserKey G1 G2)) ∧
    (∀ packed (x : Mke08.SecretUserKey G1 G2), ofVal (toVal packed x) = some (⟨x.g1, x.g2⟩ : Mke08.MasterKey G1 G2)) ∧
    (∀ x : Bdabe.PublicAttributeKey G1 G2 Gt,
      ofVal (toVal true x) = some (⟨x.attr, x.a1, x.a2⟩ : Bdabe.SecretAttributeKey G1 G2)) ∧
    (∀ packed (x : Bsw.PublicKey G1 G2 Gt), ofVal (toVal packed x) = some (⟨x.g1, x.g2⟩ : Aw11.GlobalKey G1 G2)) ∧
    (∀ (p : Str) (sk : Ac17.SecretKey G1 G2), ofVal (toVal true (⟨[p, chars% "HumanPolicy"], sk⟩ : Ac17.CpSecretKey G1 G2)) =
      some (⟨(p, .human), sk⟩ : Ac17.KpSecretKey G1 G2)) := by
  have two : ∀ {α β : Type} [Serde α] [Serde β] [SerdeLaw α] [SerdeLaw β] (packed : Bool) (a : α) (b : β),
      (((ofVal (toVal packed a) : Option α).bind fun a => (((ofVal (toVal packed b) : Option β).bind fun b =>
        (some ()).map fun c => (b, c)).map fun b => (a, b))) : Option (α × β × Unit)) = some (a, b, ()) := by
    intro α β _ _ _ _ packed a b
    rw [SerdeLaw.ofVal_toVal, SerdeLaw.ofVal_toVal]
    rfl
  refine ⟨fun packed x => ?_, fun packed x => ?_, fun packed x => ?_, fun x => ?_, fun packed x => ?_, fun p sk => ?_⟩
  · have := congrArg (Option.map fun y : G1 × G2 × Unit => (⟨y.1, y.2.1⟩ : Mke08.MasterKey G1 G2)) (two packed x.g1 x.g2)
    cases packed <;> exact this
  · have := congrArg (Option.map fun y : G1 × G2 × Unit => (⟨y.1, y.2.1⟩ : Mke08.SecretUserKey G1 G2)) (two packed x.g1 x.g2)
    cases packed <;> exact this
  · have := congrArg (Option.map fun y : G1 × G2 × Unit => (⟨y.1, y.2.1⟩ : Mke08.MasterKey G1 G2)) (two packed x.g1 x.g2)
    cases packed <;> exact this
  · have := congrArg (fun o : Option (G1 × G2 × Unit) => (o.map fun b => (x.attr, b)).map fun y : Str × G1 × G2 × Unit =>
      (⟨y.1, y.2.1, y.2.2.1⟩ : Bdabe.SecretAttributeKey G1 G2)) (two true x.a1 x.a2)
    exact this
  · have := congrArg (Option.map fun y : G1 × G2 × Unit => (⟨y.1, y.2.1⟩ : Aw11.GlobalKey G1 G2)) (two packed x.g1 x.g2)
    cases packed <;> exact this
  · have h : (ofVal (toVal true sk) : Option (Ac17.SecretKey G1 G2)) = some sk := SerdeLaw.ofVal_toVal true sk
    have := congrArg (fun o : Option (Ac17.SecretKey G1 G2) => ((o.bind fun b => (some ()).map fun c => (b, c)).map
      fun b => ((p, PolicyLanguage.human), b)).map fun y : (Str × PolicyLanguage) × Ac17.SecretKey G1 G2 × Unit =>
      (⟨y.1, y.2.1⟩ : Ac17.KpSecretKey G1 G2)) h
    exact this

end

section

open Console

variable {F G1 G2 Gt : Type} [Field F] [DecidableEq F] [AddCommGroup G1] [Module F G1]
  [AddCommGroup G2] [Module F G2] [AddCommGroup Gt] [Module F Gt]
  [Borsh F] [Borsh G1] [Borsh G2] [Borsh Gt] [Serde F] [Serde G1] [Serde G2] [Serde Gt]
  [BorshLaw F] [BorshLaw G1] [BorshLaw G2] [BorshLaw Gt]
  [SerdeLaw F] [SerdeLaw G1] [SerdeLaw G2] [SerdeLaw Gt] [Shallow F] [Shallow G1] [Shallow G2] [Shallow Gt]

/-- A user key is asked for, with the file of the public key in place of that of the master key. -/
def keygenFromPk (n : Str) : Given
  | .msk => [chars% "pk.key"]
  | .name => [n]
  | _ => []

/-- **C97, violated: the console.** Whoever has only the public key of MKE08 runs `keygen` on it with success: the command
takes the public key for the master key and stores a user key for any name. -/
theorem C97_violated_console (con : Con F G1 G2 Gt) (hc : con.format = .cbor) (lang : PolicyLanguage)
    (p : Mke08.PublicKey G1 G2 Gt) (fs : FS) (bs : Bytes) (hs : con.format.ser p = some bs)
    (hp : Holds con fs (chars% "pk.key") bs) (n : Str) (hn : n ≠ []) (hw : fs.creatable (n ++ chars% ".key") = true)
    (t t' : Tape F G1 G2 Gt) (k : Mke08.UserKey G1 G2) (hk : Mke08.keygen (F := F) p ⟨p.g1, p.g2⟩ n t = .ok (k, t'))
    (hb : (con.format.ser k).isSome = true) :
    ∃ fs', run con .keygen (keygenFromPk n) .mke08 lang fs t = (.ok (), fs', t') ∧ Reads con fs' (n ++ chars% ".key") k := by
  obtain ⟨bk, hbk⟩ := Option.isSome_iff_exists.1 hb
  obtain ⟨fs', hst⟩ := store_some (con := con) (p := n ++ chars% ".key") (head := skBegin) (tail := skEnd) hbk hw t'
  have h1 : serDec (Mke08.PublicKey G1 G2 Gt) con (chars% "pk.key") fs t = (.ok p, fs, t) := serDec_of_ser hs hp t
  have h2 : serDec (Mke08.MasterKey G1 G2) con (chars% "pk.key") fs t = (.ok ⟨p.g1, p.g2⟩, fs, t) := by
    rw [serDec_holds hp t, hc]
    rw [hc] at hs
    have : Format.read (Mke08.MasterKey G1 G2) .cbor bs = some ⟨p.g1, p.g2⟩ := by
      show fromSlice (Mke08.MasterKey G1 G2) bs = _
      rw [C97_bytes (toVal true p) (Depth.fits true p) bs hs]
      exact C97_violated_kinds.1 true p
    rw [this]
  refine ⟨fs', ?_, (store_reads framing_sk hst).2.2⟩
  show (serDec (Mke08.PublicKey G1 G2 Gt) con (chars% "pk.key") >>= fun p =>
    serDec (Mke08.MasterKey G1 G2) con (chars% "pk.key") >>= fun m =>
    if n ≠ [] then CM.call (Mke08.keygen (F := F) p m n) >>= fun k => store con (n ++ chars% ".key") k skBegin skEnd
    else CM.lift .err) fs t = _
  rw [CM.bind_of_ok h1, CM.bind_of_ok h2, if_pos hn, CM.bind_of_ok (call_eq hk), hst]

end

/-! ## Concrete cases -/

instance : Required Fr := ⟨rfl⟩

/-- The fields of an authority key of MKE08 in the other order, one by name and one by the bytes of its name, with a foreign
entry between them: an arrangement, and read as the same key; so is the bare sequence. With a field missing, a field given
twice, or a key that is no name, the map is refused. -/
example : let x : Mke08.SecretAuthorityKey Fr := ⟨['a'], 7⟩
    let ps : List (SVal × SVal) := [(.text ['r'], toVal true (7 : Fr)), (.nat 9, .null), (.bytes (utf8 (chars% "name")), .text ['a'])]
    Arranges [chars% "name", ['r']] [some (.text ['a']), some (toVal true (7 : Fr))] ps ∧
    ofVal (.map (flat ps)) = some x ∧ ofVal (.seq [.text ['a'], toVal true (7 : Fr)]) = some x ∧
    (ofVal (.map (flat (ps.take 2))) : Option (Mke08.SecretAuthorityKey Fr)) = none ∧
    (ofVal (.map (flat (ps ++ [(.nat 0, .text ['b'])]))) : Option (Mke08.SecretAuthorityKey Fr)) = none ∧
    (ofVal (.map (flat (ps ++ [(.null, .null)]))) : Option (Mke08.SecretAuthorityKey Fr)) = none := by
  intro x ps
  have hx : ofVal (toVal true x) = some x := SerdeLaw.ofVal_toVal true x
  have hA := C97_mke08 (F := Fr) (G1 := Fr) (G2 := Fr) (Gt := Fr) |>.2.2.2.2.1
  have hp : Arranges [chars% "name", ['r']] [some (.text ['a']), some (toVal true (7 : Fr))] ps :=
    (C97_fields (by decide) ps _).1 rfl
  have ho : Arranges [chars% "name", ['r']] [some (.text ['a']), some (toVal true (7 : Fr))]
      (inOrder true [chars% "name", ['r']] [some (.text ['a']), some (toVal true (7 : Fr))]) :=
    arranges_inOrder true (by decide) rfl
  have h1 : ofVal (.map (flat ps)) = some x := (hA.same _ _ _ hp ho).trans hx
  exact ⟨hp, h1, (hA.bare [.text ['a'], toVal true (7 : Fr)] ps hp).trans h1, rfl, rfl, rfl⟩

/-- The policy language in four forms. -/
example : [SVal.nat 1, .text (chars% "HumanPolicy"), .seq [.bytes (utf8 (chars% "HumanPolicy"))], .map [.nat 1, .null]].map
    (ofVal (α := PolicyLanguage)) = List.replicate 4 (some .human) ∧ (ofVal (.nat 2) : Option PolicyLanguage) = none := by
  decide +kernel

/-- A node of YCT14 in two forms. -/
example : (ofVal (.map [.text (chars% "Private"), toVal true (7 : Fr)]) : Option (Yct14.Node Fr Fr)) = some (.priv 7) ∧
    (ofVal (.seq [.nat 0, toVal true (7 : Fr)]) : Option (Yct14.Node Fr Fr)) = some (.pub 7) := by
  have h : (ofVal (toVal true (7 : Fr)) : Option Fr) = some 7 := SerdeLaw.ofVal_toVal true 7
  exact ⟨congrArg (Option.map Yct14.Node.priv) h, congrArg (Option.map Yct14.Node.pub) h⟩

/-- Named fields: a public key of AC17 is not accepted as a master key, which has a field `h`. -/
example (x : Ac17.PublicKey Fr Fr Fr) : (ofVal (toVal false x) : Option (Ac17.MasterKey Fr Fr Fr)) = none := by
  cases h : (ofVal (toVal false x) : Option (Ac17.MasterKey Fr Fr Fr)) with
  | none => rfl
  | some y =>
    have := C97_named_partial (C97_ac17 (F := Fr)).1 (C97_ac17 (Gt := Fr)).2.1 x y h 1 (by decide) (by simp)
    exact absurd this (by decide)

open Console in
/-- A public key of MKE08 in the format of the `serde` feature, and the user key made from it, as supposed in
`C97_violated_console`. -/
example : ∃ (fs fs' : FS) (t' : Tape Fr Fr Fr Fr) (k : Mke08.UserKey Fr Fr),
    run { toyCon with format := .cbor } .keygen (keygenFromPk ['u']) .mke08 .human fs toyTape = (.ok (), fs', t') ∧
    Reads { toyCon with format := .cbor } fs' (chars% "u.key") k := by
  have hx : (Format.ser .cbor (⟨1, 2, 3, 4, 5, 6⟩ : Mke08.PublicKey Fr Fr Fr)).isSome = true := by decide +kernel
  obtain ⟨bx, hbx⟩ := Option.isSome_iff_exists.1 hx
  obtain ⟨fs, h⟩ := store_some (con := { toyCon with format := .cbor }) (head := pkBegin) (tail := pkEnd) (fs := toyFS)
    (p := chars% "pk.key") hbx rfl toyTape
  obtain ⟨-, hcr, -, -, bx', hbx', h1⟩ := store_ok framing_pk h
  have hk : (match Mke08.keygen (F := Fr) (⟨1, 2, 3, 4, 5, 6⟩ : Mke08.PublicKey Fr Fr Fr)
      (⟨1, 2⟩ : Mke08.MasterKey Fr Fr) ['u'] toyTape with
    | .ok (a, _) => (Format.ser .cbor a).isSome
    | _ => false) = true := by decide +kernel
  split at hk
  · rename_i a t' ha
    obtain ⟨fs', h2, h3⟩ := C97_violated_console { toyCon with format := .cbor } rfl .human _ fs bx' hbx' h1 ['u'] (by decide)
      (by rw [hcr]; rfl) toyTape t' a ha hk
    exact ⟨fs, fs', t', a, h2, h3⟩
  · cases hk

end Rabe
