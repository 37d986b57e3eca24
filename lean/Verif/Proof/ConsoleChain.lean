import Verif.Proof.Console
import Verif.Props.Grammar

/-!
# Facts about a ciphertext stored as a serialised `Result`
-/

namespace Rabe

open Borsh

theorem utf8_head_zero {c : Char} {l : Bytes} (h : String.utf8EncodeChar c = 0 :: l) : c = '\x00' := by
  have h0 := congrArg (fun x => (x.head?.map UInt8.toNat)) h
  unfold String.utf8EncodeChar at h0
  dsimp only at h0
  split at h0
  · simp only [List.head?_cons, Option.map_some, UInt8.toNat_ofNat', Option.some.injEq] at h0
    apply Char.ext
    apply UInt32.toNat.inj
    simp only [UInt8.toNat_ofNat, Nat.reducePow, Nat.zero_mod] at h0
    show c.val.toNat = 0
    omega
  · split at h0
    · simp only [List.head?_cons, Option.map_some, UInt8.toNat_ofNat', UInt8.toNat_ofNat, Option.some.injEq] at h0
      omega
    · split at h0 <;>
      · simp only [List.head?_cons, Option.map_some, UInt8.toNat_ofNat', UInt8.toNat_ofNat, Option.some.injEq] at h0
        omega

/-- Empty or starting with the character number 0. -/
def BadStart (s : Str) : Prop := s = [] ∨ ∃ s', s = '\x00' :: s'

/-- A string read from a position one byte before a serialised string of less than 2^24 bytes. -/
theorem de_shifted {b : UInt8} {n : ℕ} (hn : n < 2 ^ 24) {rest r : Bytes} {s : Str}
    (h : de (α := List Char) (b :: (le32 n ++ rest)) = some (s, r)) : BadStart s := by
  have h3 : UInt8.ofNat (n / 256 ^ 3) = 0 := by
    have : n / 256 ^ 3 = 0 := by omega
    rw [this]; rfl
  simp only [de, le32, List.cons_append, List.nil_append, deLen, h3, Option.bind_some] at h
  split at h
  · cases h
  · simp only [Option.map_eq_some_iff, Prod.mk.injEq] at h
    obtain ⟨s', hs, rfl, -⟩ := h
    have hu := utf8_of_ofUtf8 hs
    generalize b.toNat + _ = m at hu
    cases m with
    | zero =>
      left
      cases s' with
      | nil => rfl
      | cons c s'' =>
        exfalso
        simp only [List.take_zero, utf8, List.flatMap_cons, List.append_eq_nil_iff] at hu
        exact absurd hu.1 (by
          unfold String.utf8EncodeChar
          dsimp only
          split
          · simp
          · split
            · simp
            · split <;> simp)
    | succ m =>
      simp only [List.take_succ_cons] at hu
      cases s' with
      | nil => simp [utf8] at hu
      | cons c s'' =>
        right
        refine ⟨s'', ?_⟩
        simp only [utf8, List.flatMap_cons] at hu
        cases he : String.utf8EncodeChar c with
        | nil =>
          exfalso
          unfold String.utf8EncodeChar at he
          dsimp only at he
          split at he
          · simp at he
          · split at he
            · simp at he
            · split at he <;> simp at he
        | cons x l =>
          rw [he] at hu
          simp only [List.cons_append, List.cons.injEq] at hu
          rw [hu.1] at he
          rw [utf8_head_zero he]

/-! ## No policy text starts that way -/

theorem blank_start {bl : Str} (h : Blank bl) : bl = [] ∨ ∃ c t, bl = c :: t ∧ c ≠ '\x00' := by
  cases h with
  | nil => exact .inl rfl
  | space c t hc _ =>
    refine .inr ⟨c, t, rfl, ?_⟩
    rintro rfl
    revert hc; decide
  | comment body t _ _ => exact .inr ⟨'/', _, rfl, by decide⟩

theorem human_start {k : HKind} {b t : Str} {is : List Item} (h : Human k b t is) :
    (∀ op, k ≠ .tail op) → ∃ c u, t = c :: u ∧ c ≠ '\x00' := by
  induction h with
  | attr b n _ => exact fun _ => ⟨'"', _, rfl, by decide⟩
  | num b t hn =>
    intro _
    obtain ⟨sign, int, frac, exp, rfl, hs, hi, -, -⟩ := hn
    rcases hs with rfl | rfl
    · rcases hi with rfl | ⟨c, ds, rfl, hc, -⟩
      · exact ⟨'0', _, rfl, by decide⟩
      · refine ⟨c, _, rfl, ?_⟩
        rintro rfl
        revert hc; decide
    · exact ⟨'-', _, rfl, by decide⟩
  | bracket b o bl t bl' c i ho hc _ _ _ _ =>
    intro _
    refine ⟨o, _, rfl, ?_⟩
    rintro rfl
    revert ho; decide
  | single b t i _ ih => exact fun _ => ih (fun _ => by simp)
  | gate b t u op i j is _ _ ih _ =>
    intro _
    obtain ⟨c, u', rfl, hc⟩ := ih (fun _ => by simp)
    exact ⟨c, _, rfl, hc⟩
  | last b op => exact fun h => absurd rfl (h op)
  | next b bl w bl' t u op i is _ _ _ _ _ _ _ => exact fun h => absurd rfl (h op)

theorem json_start {R : Str → Prop} {b t : Str} {is : List Item} (h : Json R .node b t is) : ∃ u, t = '{' :: u := by
  have hs : ∀ h, Spaced nameHead h → ∃ u, h = '{' :: u := by
    intro h hs
    obtain ⟨x, bl, u, rfl, rfl, -⟩ := hs
    exact ⟨_, rfl⟩
  cases h with
  | attr _ h _ _ h1 _ _ => obtain ⟨u, rfl⟩ := hs _ h1; exact ⟨_, rfl⟩
  | num _ h _ _ h1 _ _ => obtain ⟨u, rfl⟩ := hs _ h1; exact ⟨_, rfl⟩
  | gate _ h _ _ _ _ _ h1 _ _ _ => obtain ⟨u, rfl⟩ := hs _ h1; exact ⟨_, rfl⟩

theorem start_of {text bl t bl' : Str} (h : text = bl ++ (t ++ bl')) (hb : Blank bl) {c : Char} {u : Str}
    (ht : t = c :: u) (hc : c ≠ '\x00') : ¬ BadStart text := by
  subst h ht
  rcases blank_start hb with rfl | ⟨d, v, rfl, hd⟩
  · rintro (h | ⟨s, h⟩)
    · simp at h
    · simp only [List.nil_append, List.cons_append, List.cons.injEq] at h
      exact hc h.1
  · rintro (h | ⟨s, h⟩)
    · simp at h
    · simp only [List.cons_append, List.cons.injEq] at h
      exact hd h.1

theorem parse_badStart {text : Str} (h : BadStart text) (lang : PolicyLanguage) (v : PolicyValue) :
    parse text lang ≠ .ok v := by
  intro hp
  cases lang with
  | human =>
    obtain ⟨p, -, bl, t, bl', e, hb, -, ht⟩ := (C58_human_parse_iff text v).1 hp
    obtain ⟨c, u, hc, hn⟩ := human_start ht (fun _ => by simp)
    exact start_of e hb hc hn h
  | json =>
    obtain ⟨p, -, bl, t, bl', e, hb, -, ht⟩ := C59_json_parse_sound_partial text v hp
    obtain ⟨u, hc⟩ := json_start ht
    exact start_of e hb hc (by decide) h

/-! ## Ciphertexts that start with their policy -/

/-- The serialised form starts with the policy text. -/
structure PolicyFirst (α : Type) [Borsh α] (pol : α → Str × PolicyLanguage) : Prop where
  ser_start : ∀ x bs, ser x = some bs → ∃ rest, bs = le32 (utf8 (pol x).1).length ++ rest
  de_start : ∀ bs x r, de bs = some (x, r) → ∃ r', de (α := List Char) bs = some ((pol x).1, r')

theorem PolicyFirst.via {α β : Type} [Borsh α] (out : β → (Str × PolicyLanguage) × α)
    (back : (Str × PolicyLanguage) × α → β) (pol : β → Str × PolicyLanguage) (h : ∀ x, pol x = (out x).1)
    (h' : ∀ p, pol (back p) = p.1) : @PolicyFirst β (Borsh.via out back) pol := by
  let _ := Borsh.via out back
  refine ⟨?_, ?_⟩
  · intro x bs hs
    have hs' : ser (out x) = some bs := hs
    simp only [ser, Option.bind_eq_some_iff, Option.map_eq_some_iff] at hs'
    obtain ⟨b1, ⟨b2, ⟨l, hl, rfl⟩, b3, -, rfl⟩, b4, -, rfl⟩ := hs'
    obtain ⟨-, rfl⟩ := serLen_some hl
    rw [h]
    exact ⟨utf8 (out x).1.1 ++ (b3 ++ b4), by simp only [List.append_assoc]⟩
  · intro bs x r hd
    have hd' : (de (α := (Str × PolicyLanguage) × α) bs).map (fun (a, r) => (back a, r)) = some (x, r) := hd
    simp only [Option.map_eq_some_iff, Prod.mk.injEq] at hd'
    obtain ⟨⟨p, r0⟩, hp, rfl, rfl⟩ := hd'
    have hp' : (de (α := Str × PolicyLanguage) bs).bind (fun (x, r) => (de r).map fun (y, r') => ((x, y), r'))
        = some (p, r0) := hp
    simp only [Option.bind_eq_some_iff, Option.map_eq_some_iff, Prod.mk.injEq] at hp'
    obtain ⟨⟨sl, r1⟩, h1, ⟨y, r2⟩, -, rfl, -⟩ := hp'
    have h1' : (de (α := List Char) bs).bind (fun (x, r) => (de (α := PolicyLanguage) r).map fun (y, r') => ((x, y), r'))
        = some (sl, r1) := h1
    simp only [Option.bind_eq_some_iff, Option.map_eq_some_iff, Prod.mk.injEq] at h1'
    obtain ⟨⟨s, r3⟩, h3, ⟨l, r4⟩, -, rfl, -⟩ := h1'
    rw [h']
    exact ⟨r3, h3⟩

/-- A ciphertext stored as a `Result` and read back as a ciphertext has an unusable policy. -/
theorem PolicyFirst.result {α : Type} [Borsh α] {pol : α → Str × PolicyLanguage} (h : PolicyFirst α pol) {err : Str}
    (he : (utf8 err).length < 2 ^ 24) {o : Option α} (ho : ∀ x, o = some x → (utf8 (pol x).1).length < 2 ^ 24)
    {bs : Bytes} (hs : serResult err o = some bs) {x : α} (hx : tryFromSlice α bs = some x) : BadStart (pol x).1 := by
  have hd : ∃ r, de bs = some (x, r) := by
    unfold tryFromSlice at hx
    split at hx
    · rename_i a ha
      cases hx
      exact ⟨_, ha⟩
    · cases hx
  obtain ⟨r, hd⟩ := hd
  obtain ⟨r', hd'⟩ := h.de_start _ _ _ hd
  cases o with
  | none =>
    simp only [serResult, Option.map_eq_some_iff] at hs
    obtain ⟨b, hb, rfl⟩ := hs
    simp only [ser, Option.map_eq_some_iff] at hb
    obtain ⟨l, hl, rfl⟩ := hb
    obtain ⟨-, rfl⟩ := serLen_some hl
    exact de_shifted he hd'
  | some y =>
    simp only [serResult, Option.map_eq_some_iff] at hs
    obtain ⟨b, hb, rfl⟩ := hs
    obtain ⟨rest, rfl⟩ := h.ser_start y b hb
    exact de_shifted (ho y rfl) hd'

variable {F G1 G2 Gt : Type} [Borsh F] [Borsh G1] [Borsh G2] [Borsh Gt]

theorem bsw_policyFirst : PolicyFirst (Bsw.Ciphertext G1 G2 Gt) (fun x => x.policy) :=
  PolicyFirst.via (fun x : Bsw.Ciphertext G1 G2 Gt => (x.policy, x.c, x.cP, x.cY, x.data))
    (fun p => (⟨p.1, p.2.1, p.2.2.1, p.2.2.2.1, p.2.2.2.2⟩ : Bsw.Ciphertext G1 G2 Gt)) _ (fun _ => rfl) (fun _ => rfl)

theorem aw11_policyFirst : PolicyFirst (Aw11.Ciphertext G2 Gt) (fun x => x.policy) :=
  PolicyFirst.via (fun x : Aw11.Ciphertext G2 Gt => (x.policy, x.c0, x.c, x.ct))
    (fun p => (⟨p.1, p.2.1, p.2.2.1, p.2.2.2⟩ : Aw11.Ciphertext G2 Gt)) _ (fun _ => rfl) (fun _ => rfl)

/-- A `Result` is never read back as the value it contains. -/
theorem result_ne {α : Type} [Borsh α] [BorshExact α] {err : Str} {x : α} {bs : Bytes}
    (hs : serResult err (some x) = some bs) : tryFromSlice α bs ≠ some x := by
  intro h
  have h1 := ser_of_tryFromSlice h
  simp only [serResult, Option.map_eq_some_iff] at hs
  obtain ⟨b, hb, rfl⟩ := hs
  rw [h1] at hb
  have := congrArg List.length (Option.some.inj hb)
  simp at this

/-! ## The same with the `serde` feature: a `Result` is not even read -/

/-- A map with the single key 0 or 1 is not a value of the type. -/
def NotResult (α : Type) [Serde α] : Prop :=
  ∀ v : SVal, (Serde.ofVal (.map [.nat 0, v]) : Option α) = none ∧ (Serde.ofVal (.map [.nat 1, v]) : Option α) = none

/-- A structure is not read if one of the later fields is not. -/
theorem read_none_tail {α β : Type} [Serde α] [Serde.Row β] (o : Option SVal) {r : List (Option SVal)}
    (h : (Serde.Row.read r : Option β) = none) : (Serde.Row.read (o :: r) : Option (α × β)) = none := by
  show Option.bind _ _ = none
  rw [h]
  simp

/-- A structure whose last field, a string of bytes, is absent is not read. -/
theorem read_data_missing : (Serde.Row.read [none] : Option (List UInt8 × Unit)) = none := rfl

theorem bsw_notResult [Serde G1] [Serde G2] [Serde Gt] : NotResult (Bsw.Ciphertext G1 G2 Gt) := fun v => by
  have h1 (x y : Option SVal) : (Serde.Row.read [x, y, none, none, none] : Option ((Str × PolicyLanguage) × G1 × Gt ×
      List (Bsw.Attribute G1 G2) × List UInt8 × Unit)) = none :=
    read_none_tail _ (read_none_tail _ (read_none_tail _ (read_none_tail _ read_data_missing)))
  simp only [Serde.ofVal, Serde.readStruct, Serde.collect, Serde.fieldOf, List.map_cons, List.map_nil, List.length_cons,
    List.length_nil, List.set_cons_zero, List.set_cons_succ, List.getElem?_cons_zero, List.getElem?_cons_succ,
    Option.bind_some, Nat.reduceAdd, Nat.reduceLT, if_true]
  exact ⟨congrArg (Option.map _) (h1 (some v) none), congrArg (Option.map _) (h1 none (some v))⟩

theorem aw11_notResult [Serde G2] [Serde Gt] : NotResult (Aw11.Ciphertext G2 Gt) := fun v => by
  have h1 (x y : Option SVal) : (Serde.Row.read [x, y, none, none] : Option ((Str × PolicyLanguage) × Gt ×
      List (Aw11.CtAttr G2 Gt) × List UInt8 × Unit)) = none :=
    read_none_tail _ (read_none_tail _ (read_none_tail _ read_data_missing))
  simp only [Serde.ofVal, Serde.readStruct, Serde.collect, Serde.fieldOf, List.map_cons, List.map_nil, List.length_cons,
    List.length_nil, List.set_cons_zero, List.set_cons_succ, List.getElem?_cons_zero, List.getElem?_cons_succ,
    Option.bind_some, Nat.reduceAdd, Nat.reduceLT, if_true]
  exact ⟨congrArg (Option.map _) (h1 (some v) none), congrArg (Option.map _) (h1 none (some v))⟩

theorem lsw_notResult [Serde G1] [Serde G2] [Serde Gt] : NotResult (Lsw.Ciphertext G1 G2 Gt) := fun v => by
  have h1 (x y : Option SVal) : (Serde.Row.read [x, y, none, none] : Option (Gt × G2 × List (Lsw.CtAttr G1) ×
      List UInt8 × Unit)) = none :=
    read_none_tail _ (read_none_tail _ (read_none_tail _ read_data_missing))
  simp only [Serde.ofVal, Serde.readStruct, Serde.collect, Serde.fieldOf, List.map_cons, List.map_nil, List.length_cons,
    List.length_nil, List.set_cons_zero, List.set_cons_succ, List.getElem?_cons_zero, List.getElem?_cons_succ,
    Option.bind_some, Nat.reduceAdd, Nat.reduceLT, if_true]
  exact ⟨congrArg (Option.map _) (h1 (some v) none), congrArg (Option.map _) (h1 none (some v))⟩

/-- If a stored `Result` is read at all, the feature is `borsh`. -/
theorem borsh_of_result {α : Type} [Borsh α] [Serde α] [Serde.Depth 126 α] (hn : NotResult α) {fmt : Format} {err : Str}
    {o : Option α} {bs : Bytes} (hs : fmt.serResult err o = some bs) {x : α} (hx : fmt.read α bs = some x) :
    fmt = .borsh := by
  cases fmt with
  | borsh => rfl
  | cbor =>
    exfalso
    have hp : ∃ v, Serde.parse 127 bs = some (v, []) ∧ (Serde.ofVal v : Option α) = none := by
      cases o with
      | none =>
        refine ⟨_, ?_, (hn (.map [.nat 0, .text err])).2⟩
        have hf : Serde.Fits 127 (.map [.nat 1, .map [.nat 0, .text err]]) := by
          refine .map 126 _ (by simp) fun v hv => ?_
          simp only [List.mem_cons, List.not_mem_nil, or_false] at hv
          rcases hv with rfl | rfl
          · exact .nat _ _
          · refine .map 125 _ (by simp) fun v hv => ?_
            simp only [List.mem_cons, List.not_mem_nil, or_false] at hv
            rcases hv with rfl | rfl
            · exact .nat _ _
            · exact .text _ _
        have := Serde.parse_enc hf bs [] hs
        simpa using this
      | some y =>
        refine ⟨_, ?_, (hn (Serde.toVal true y)).1⟩
        have hf : Serde.Fits 127 (.map [.nat 0, Serde.toVal true y]) := by
          refine .map 126 _ (by simp) fun v hv => ?_
          simp only [List.mem_cons, List.not_mem_nil, or_false] at hv
          rcases hv with rfl | rfl
          · exact .nat _ _
          · exact Serde.Depth.fits true y
        have := Serde.parse_enc hf bs [] hs
        simpa using this
    obtain ⟨v, h1, h2⟩ := hp
    have hx' : Serde.fromSlice α bs = some x := hx
    rw [Serde.fromSlice, h1] at hx'
    simp only [h2] at hx'
    cases hx'

/-! ## YCT14 objects read from bytes have no nodes -/

section
omit [Borsh F] [Borsh Gt]

theorem yct14_de_none : ∀ (n : ℕ) (bs r : Bytes) (xs : List (Yct14.Attribute F Gt)),
    deAll n bs = some (xs, r) → ∀ a ∈ xs, a.node = none
  | 0, bs, r, xs, h => by cases h; simp
  | n + 1, bs, r, xs, h => by
    simp only [deAll, Option.bind_eq_some_iff, Option.map_eq_some_iff, Prod.mk.injEq] at h
    obtain ⟨⟨x, r1⟩, hx, ⟨xs', r2⟩, hxs, rfl, -⟩ := h
    have hx' : (de (α := List Char) bs).map (fun (p, r) => ((⟨p, none⟩ : Yct14.Attribute F Gt), r)) = some (x, r1) := hx
    simp only [Option.map_eq_some_iff, Prod.mk.injEq] at hx'
    obtain ⟨⟨p, r3⟩, -, rfl, -⟩ := hx'
    intro a ha
    rcases List.mem_cons.1 ha with rfl | ha
    · rfl
    · exact yct14_de_none n _ _ _ hxs a ha

theorem yct14_list_de {bs r : Bytes} {xs : List (Yct14.Attribute F Gt)} (h : de bs = some (xs, r)) :
    ∀ a ∈ xs, a.node = none := by
  simp only [de, Option.bind_eq_some_iff] at h
  obtain ⟨⟨n, r'⟩, -, h⟩ := h
  exact yct14_de_none n _ _ _ h

theorem de_of_try {α : Type} [Borsh α] {bs : Bytes} {x : α} (h : tryFromSlice α bs = some x) :
    de bs = some (x, []) := by
  unfold tryFromSlice at h
  split at h
  · rename_i a ha
    cases h
    exact ha
  · cases h

theorem yct14_second {α : Type} [Borsh α] {bs r : Bytes} {g : α} {as : List (Yct14.Attribute F Gt)}
    (h : de (α := α × List (Yct14.Attribute F Gt)) bs = some ((g, as), r)) : ∀ a ∈ as, a.node = none := by
  have h' : (de (α := α) bs).bind (fun (x, r) =>
      (de (α := List (Yct14.Attribute F Gt)) r).map fun (y, r') => ((x, y), r')) = some ((g, as), r) := h
  obtain ⟨⟨g', r1⟩, -, h4⟩ := Option.bind_eq_some_iff.1 h'
  obtain ⟨⟨as', r2⟩, has, h5⟩ := Option.map_eq_some_iff.1 h4
  cases h5
  exact yct14_list_de has

theorem yct14_pk_nodes [Borsh Gt] {bs : Bytes} {pk : Yct14.PublicKey F Gt}
    (h : tryFromSlice (Yct14.PublicKey F Gt) bs = some pk) : ∀ a ∈ pk.attributes, a.node = none := by
  have h1 : (de (α := Gt × List (Yct14.Attribute F Gt)) bs).map
      (fun (p, r) => ((⟨p.1, p.2⟩ : Yct14.PublicKey F Gt), r)) = some (pk, []) := de_of_try h
  obtain ⟨⟨⟨g, as⟩, r⟩, h2, h3⟩ := Option.map_eq_some_iff.1 h1
  cases h3
  exact yct14_second h2

theorem yct14_msk_nodes [Borsh F] {bs : Bytes} {k : Yct14.MasterKey F Gt}
    (h : tryFromSlice (Yct14.MasterKey F Gt) bs = some k) : ∀ a ∈ k.attributes, a.node = none := by
  have h1 : (de (α := F × List (Yct14.Attribute F Gt)) bs).map
      (fun (p, r) => ((⟨p.1, p.2⟩ : Yct14.MasterKey F Gt), r)) = some (k, []) := de_of_try h
  obtain ⟨⟨⟨g, as⟩, r⟩, h2, h3⟩ := Option.map_eq_some_iff.1 h1
  cases h3
  exact yct14_second h2

theorem yct14_sk_nodes {bs : Bytes} {sk : Yct14.SecretKey F Gt} (h : tryFromSlice (Yct14.SecretKey F Gt) bs = some sk) :
    ∀ a ∈ sk.du, a.node = none := by
  have h1 : (de (α := (Str × PolicyLanguage) × List (Yct14.Attribute F Gt)) bs).map
      (fun (p, r) => ((⟨p.1, p.2⟩ : Yct14.SecretKey F Gt), r)) = some (sk, []) := de_of_try h
  obtain ⟨⟨⟨g, as⟩, r⟩, h2, h3⟩ := Option.map_eq_some_iff.1 h1
  cases h3
  exact yct14_second h2

end

end Rabe
