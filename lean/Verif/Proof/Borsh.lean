import Verif.Model.BorshTypes
import Mathlib.Tactic.Ring
import Mathlib.Tactic.NormNum

/-!
# Laws of the binary serialisation

`BorshLaw`: a serialised value is read back, whatever follows it. `BorshExact`: what is read is the serialisation of the
value that was read (so an accepted input is the only serialisation of its value).
-/

namespace Rabe

open Borsh

/-- Every serialised value is read back and the input that follows it is left. Derive macros of
`/repo/src/schemes/bsw/mod.rs:41` and the other types. -/
class BorshLaw (α : Type) [Borsh α] : Prop where
  de_ser : ∀ (a : α) bs, ser a = some bs → ∀ r, de (bs ++ r) = some (a, r)

/-- Every accepted input starts with the serialisation of the value read. -/
class BorshExact (α : Type) [Borsh α] : Prop where
  exact : ∀ bs (a : α) r, de bs = some (a, r) → ∃ s, ser a = some s ∧ bs = s ++ r

theorem toByteArray_data (bs : Bytes) : bs.toByteArray.data.toList = bs := by
  simp

theorem utf8_eq (s : Str) : (utf8 s).toByteArray = s.utf8Encode := rfl

theorem ofUtf8_utf8 (s : Str) : ofUtf8 (utf8 s) = some s := by
  simp [ofUtf8, utf8_eq, List.utf8Decode?_utf8Encode]

theorem utf8_of_ofUtf8 {bs : Bytes} {s : Str} (h : ofUtf8 bs = some s) : utf8 s = bs := by
  simp only [ofUtf8, Option.map_eq_some_iff] at h
  obtain ⟨a, ha, rfl⟩ := h
  have h1 := ByteArray.utf8Encode_get_utf8Decode? (b := bs.toByteArray) (h := by simp [ha])
  simp only [ha, Option.get_some] at h1
  rw [← utf8_eq] at h1
  have := congrArg (fun b : ByteArray => b.data.toList) h1
  simpa only [toByteArray_data] using this

theorem utf8_inj {s t : Str} (h : utf8 s = utf8 t) : s = t := by
  have := ofUtf8_utf8 s
  rw [h, ofUtf8_utf8] at this
  exact (Option.some.inj this).symm

theorem le32_length (n : ℕ) : (le32 n).length = 4 := rfl

theorem deLen_le32 {n : ℕ} (h : n < 2 ^ 32) (r : Bytes) : deLen (le32 n ++ r) = some (n, r) := by
  simp only [le32, List.cons_append, List.nil_append, deLen, UInt8.toNat_ofNat', Option.some.injEq, Prod.mk.injEq,
    and_true]
  omega

theorem deLen_some {bs : Bytes} {n : ℕ} {r : Bytes} (h : deLen bs = some (n, r)) : n < 2 ^ 32 ∧ bs = le32 n ++ r := by
  match bs, h with
  | a :: b :: c :: d :: r', h =>
    simp only [deLen, Option.some.injEq, Prod.mk.injEq] at h
    obtain ⟨rfl, rfl⟩ := h
    have ha := a.toNat_lt
    have hb := b.toNat_lt
    have hc := c.toNat_lt
    have hd := d.toNat_lt
    refine ⟨by omega, ?_⟩
    simp only [le32, List.cons_append, List.nil_append, List.cons.injEq, and_true]
    refine ⟨?_, ?_, ?_, ?_⟩ <;> apply UInt8.toNat.inj <;> simp only [UInt8.toNat_ofNat'] <;> omega

theorem serLen_some {n : ℕ} {l : Bytes} (h : serLen n = some l) : n < 2 ^ 32 ∧ l = le32 n := by
  unfold serLen at h
  split at h
  · exact ⟨by assumption, (Option.some.inj h).symm⟩
  · cases h

theorem serLen_lt {n : ℕ} (h : n < 2 ^ 32) : serLen n = some (le32 n) := if_pos h

instance : BorshLaw UInt8 where
  de_ser a bs h r := by cases h; rfl

instance : BorshExact UInt8 where
  exact bs a r h := by
    match bs, h with
    | b :: r', h => cases h; exact ⟨_, rfl, rfl⟩

instance : BorshLaw PolicyLanguage where
  de_ser a bs h r := by cases a <;> cases h <;> rfl

instance : BorshExact PolicyLanguage where
  exact bs a r h := by
    match bs, h with
    | b :: r', h =>
      simp only [de] at h
      split at h
      · rename_i hb
        subst hb
        cases h
        exact ⟨_, rfl, rfl⟩
      · split at h
        · rename_i hb
          subst hb
          cases h
          exact ⟨_, rfl, rfl⟩
        · cases h

instance : BorshLaw (List Char) where
  de_ser s bs h r := by
    simp only [ser, Option.map_eq_some_iff] at h
    obtain ⟨l, hl, rfl⟩ := h
    obtain ⟨hn, rfl⟩ := serLen_some hl
    simp [de, List.append_assoc, deLen_le32 hn, ofUtf8_utf8]

instance : BorshExact (List Char) where
  exact bs s r h := by
    simp only [de, Option.bind_eq_some_iff] at h
    obtain ⟨⟨n, r1⟩, h1, h2⟩ := h
    obtain ⟨hn, rfl⟩ := deLen_some h1
    dsimp only at h2
    split at h2
    · cases h2
    · rename_i hlen
      simp only [Option.map_eq_some_iff, Prod.mk.injEq] at h2
      obtain ⟨s', hs, rfl, rfl⟩ := h2
      have hu := utf8_of_ofUtf8 hs
      have hl : (utf8 s').length = n := by rw [hu, List.length_take]; omega
      refine ⟨le32 n ++ utf8 s', ?_, ?_⟩
      · simp [ser, hl, serLen_lt hn]
      · rw [List.append_assoc, hu, List.take_append_drop]

section
variable {α β : Type} [Borsh α] [Borsh β]

theorem deAll_serAll [BorshLaw α] : ∀ (xs : List α) bs, serAll xs = some bs → ∀ r, deAll xs.length (bs ++ r) = some (xs, r)
  | [], bs, h, r => by cases h; rfl
  | x :: xs, bs, h, r => by
    simp only [serAll, Option.bind_eq_some_iff, Option.map_eq_some_iff] at h
    obtain ⟨b, hb, bs', hbs, rfl⟩ := h
    simp [deAll, List.append_assoc, BorshLaw.de_ser x b hb, deAll_serAll xs bs' hbs r]

theorem deAll_some [BorshExact α] : ∀ n bs (xs : List α) r, deAll n bs = some (xs, r) →
    xs.length = n ∧ ∃ s, serAll xs = some s ∧ bs = s ++ r
  | 0, bs, xs, r, h => by cases h; exact ⟨rfl, [], rfl, rfl⟩
  | n + 1, bs, xs, r, h => by
    simp only [deAll, Option.bind_eq_some_iff, Option.map_eq_some_iff, Prod.mk.injEq] at h
    obtain ⟨⟨x, r1⟩, h1, ⟨ys, r2⟩, h2, rfl, rfl⟩ := h
    obtain ⟨s1, hs1, rfl⟩ := BorshExact.exact _ _ _ h1
    obtain ⟨hl, s2, hs2, h2'⟩ := deAll_some n _ _ _ h2
    dsimp only at h2'
    subst h2'
    refine ⟨by simp [hl], s1 ++ s2, ?_, by simp⟩
    simp [serAll, hs1, hs2]

instance [BorshLaw α] : BorshLaw (List α) where
  de_ser xs bs h r := by
    simp only [ser, Option.bind_eq_some_iff, Option.map_eq_some_iff] at h
    obtain ⟨l, hl, b, hb, rfl⟩ := h
    obtain ⟨hn, rfl⟩ := serLen_some hl
    simp [de, List.append_assoc, deLen_le32 hn, deAll_serAll xs b hb r]

instance [BorshExact α] : BorshExact (List α) where
  exact bs xs r h := by
    simp only [de, Option.bind_eq_some_iff] at h
    obtain ⟨⟨n, r1⟩, h1, h2⟩ := h
    obtain ⟨hn, rfl⟩ := deLen_some h1
    obtain ⟨rfl, s, hs, h3⟩ := deAll_some _ _ _ _ h2
    dsimp only at h3 hn
    subst h3
    exact ⟨le32 xs.length ++ s, by simp [ser, serLen_lt hn, hs], by simp⟩

instance [BorshLaw α] [BorshLaw β] : BorshLaw (α × β) where
  de_ser p bs h r := by
    simp only [ser, Option.bind_eq_some_iff, Option.map_eq_some_iff] at h
    obtain ⟨b1, h1, b2, h2, rfl⟩ := h
    simp [de, List.append_assoc, BorshLaw.de_ser _ _ h1, BorshLaw.de_ser _ _ h2]

instance [BorshExact α] [BorshExact β] : BorshExact (α × β) where
  exact bs p r h := by
    simp only [de, Option.bind_eq_some_iff, Option.map_eq_some_iff, Prod.mk.injEq] at h
    obtain ⟨⟨x, r1⟩, h1, ⟨y, r2⟩, h2, rfl, rfl⟩ := h
    obtain ⟨s1, hs1, rfl⟩ := BorshExact.exact _ _ _ h1
    obtain ⟨s2, hs2, h3⟩ := BorshExact.exact _ _ _ h2
    dsimp only at h3
    subst h3
    exact ⟨s1 ++ s2, by simp [ser, hs1, hs2], by simp⟩

theorem BorshLaw.via [BorshLaw α] {γ : Type} (out : γ → α) (back : α → γ) (h : ∀ x, back (out x) = x) :
    @BorshLaw γ (Borsh.via out back) :=
  letI := Borsh.via out back
  { de_ser := fun a bs hs r => by
      have := BorshLaw.de_ser (out a) bs hs r
      show (de (bs ++ r)).map _ = _
      rw [this]
      simp [h] }

theorem BorshExact.via [BorshExact α] {γ : Type} (out : γ → α) (back : α → γ) (h : ∀ x, out (back x) = x) :
    @BorshExact γ (Borsh.via out back) :=
  letI := Borsh.via out back
  { exact := fun bs a r hd => by
      have hd' : (de (α := α) bs).map (fun (a, r) => (back a, r)) = some (a, r) := hd
      simp only [Option.map_eq_some_iff, Prod.mk.injEq] at hd'
      obtain ⟨⟨x, r'⟩, hx, rfl, rfl⟩ := hd'
      obtain ⟨s, hs, hb⟩ := BorshExact.exact _ _ _ hx
      exact ⟨s, by show ser (out (back x)) = _; rw [h]; exact hs, hb⟩ }

theorem tryFromSlice_ser [BorshLaw α] {a : α} {bs : Bytes} (h : ser a = some bs) : tryFromSlice α bs = some a := by
  have := BorshLaw.de_ser a bs h []
  rw [List.append_nil] at this
  simp [tryFromSlice, this]

theorem ser_of_tryFromSlice [BorshExact α] {a : α} {bs : Bytes} (h : tryFromSlice α bs = some a) :
    ser a = some bs := by
  unfold tryFromSlice at h
  split at h
  · rename_i a' hd
    cases h
    obtain ⟨s, hs, rfl⟩ := BorshExact.exact _ _ _ hd
    simpa using hs
  · cases h

end

variable {F G1 G2 Gt : Type}

namespace Bsw

instance [Borsh G1] [BorshLaw G1] [Borsh G2] [BorshLaw G2] [Borsh Gt] [BorshLaw Gt] : BorshLaw (PublicKey G1 G2 Gt) :=
  BorshLaw.via (fun x : PublicKey G1 G2 Gt => (x.g1, x.g2, x.h, x.f, x.eGgAlpha))
    (fun p => (⟨p.1, p.2.1, p.2.2.1, p.2.2.2.1, p.2.2.2.2⟩ : PublicKey G1 G2 Gt)) fun _ => rfl

instance [Borsh G1] [BorshExact G1] [Borsh G2] [BorshExact G2] [Borsh Gt] [BorshExact Gt] : BorshExact (PublicKey G1 G2 Gt) :=
  BorshExact.via (fun x : PublicKey G1 G2 Gt => (x.g1, x.g2, x.h, x.f, x.eGgAlpha))
    (fun p => (⟨p.1, p.2.1, p.2.2.1, p.2.2.2.1, p.2.2.2.2⟩ : PublicKey G1 G2 Gt)) fun _ => rfl

instance [Borsh F] [BorshLaw F] [Borsh G2] [BorshLaw G2] : BorshLaw (MasterKey F G2) :=
  BorshLaw.via (fun x : MasterKey F G2 => (x.beta, x.g2Alpha))
    (fun p => (⟨p.1, p.2⟩ : MasterKey F G2)) fun _ => rfl

instance [Borsh F] [BorshExact F] [Borsh G2] [BorshExact G2] : BorshExact (MasterKey F G2) :=
  BorshExact.via (fun x : MasterKey F G2 => (x.beta, x.g2Alpha))
    (fun p => (⟨p.1, p.2⟩ : MasterKey F G2)) fun _ => rfl

instance [Borsh G1] [BorshLaw G1] [Borsh G2] [BorshLaw G2] : BorshLaw (Attribute G1 G2) :=
  BorshLaw.via (fun x : Attribute G1 G2 => (x.string, x.g1, x.g2))
    (fun p => (⟨p.1, p.2.1, p.2.2⟩ : Attribute G1 G2)) fun _ => rfl

instance [Borsh G1] [BorshExact G1] [Borsh G2] [BorshExact G2] : BorshExact (Attribute G1 G2) :=
  BorshExact.via (fun x : Attribute G1 G2 => (x.string, x.g1, x.g2))
    (fun p => (⟨p.1, p.2.1, p.2.2⟩ : Attribute G1 G2)) fun _ => rfl

instance [Borsh G1] [BorshLaw G1] [Borsh G2] [BorshLaw G2] [Borsh Gt] [BorshLaw Gt] : BorshLaw (Ciphertext G1 G2 Gt) :=
  BorshLaw.via (fun x : Ciphertext G1 G2 Gt => (x.policy, x.c, x.cP, x.cY, x.data))
    (fun p => (⟨p.1, p.2.1, p.2.2.1, p.2.2.2.1, p.2.2.2.2⟩ : Ciphertext G1 G2 Gt)) fun _ => rfl

instance [Borsh G1] [BorshExact G1] [Borsh G2] [BorshExact G2] [Borsh Gt] [BorshExact Gt] : BorshExact (Ciphertext G1 G2 Gt) :=
  BorshExact.via (fun x : Ciphertext G1 G2 Gt => (x.policy, x.c, x.cP, x.cY, x.data))
    (fun p => (⟨p.1, p.2.1, p.2.2.1, p.2.2.2.1, p.2.2.2.2⟩ : Ciphertext G1 G2 Gt)) fun _ => rfl

instance [Borsh G1] [BorshLaw G1] [Borsh G2] [BorshLaw G2] : BorshLaw (SecretKey G1 G2) :=
  BorshLaw.via (fun x : SecretKey G1 G2 => (x.d, x.dJ))
    (fun p => (⟨p.1, p.2⟩ : SecretKey G1 G2)) fun _ => rfl

instance [Borsh G1] [BorshExact G1] [Borsh G2] [BorshExact G2] : BorshExact (SecretKey G1 G2) :=
  BorshExact.via (fun x : SecretKey G1 G2 => (x.d, x.dJ))
    (fun p => (⟨p.1, p.2⟩ : SecretKey G1 G2)) fun _ => rfl

end Bsw

namespace Ac17

instance [Borsh G1] [BorshLaw G1] [Borsh G2] [BorshLaw G2] [Borsh Gt] [BorshLaw Gt] : BorshLaw (PublicKey G1 G2 Gt) :=
  BorshLaw.via (fun x : PublicKey G1 G2 Gt => (x.g, x.hA, x.eGhKa))
    (fun p => (⟨p.1, p.2.1, p.2.2⟩ : PublicKey G1 G2 Gt)) fun _ => rfl

instance [Borsh G1] [BorshExact G1] [Borsh G2] [BorshExact G2] [Borsh Gt] [BorshExact Gt] : BorshExact (PublicKey G1 G2 Gt) :=
  BorshExact.via (fun x : PublicKey G1 G2 Gt => (x.g, x.hA, x.eGhKa))
    (fun p => (⟨p.1, p.2.1, p.2.2⟩ : PublicKey G1 G2 Gt)) fun _ => rfl

instance [Borsh F] [BorshLaw F] [Borsh G1] [BorshLaw G1] [Borsh G2] [BorshLaw G2] : BorshLaw (MasterKey F G1 G2) :=
  BorshLaw.via (fun x : MasterKey F G1 G2 => (x.g, x.h, x.gK, x.a, x.b))
    (fun p => (⟨p.1, p.2.1, p.2.2.1, p.2.2.2.1, p.2.2.2.2⟩ : MasterKey F G1 G2)) fun _ => rfl

instance [Borsh F] [BorshExact F] [Borsh G1] [BorshExact G1] [Borsh G2] [BorshExact G2] : BorshExact (MasterKey F G1 G2) :=
  BorshExact.via (fun x : MasterKey F G1 G2 => (x.g, x.h, x.gK, x.a, x.b))
    (fun p => (⟨p.1, p.2.1, p.2.2.1, p.2.2.2.1, p.2.2.2.2⟩ : MasterKey F G1 G2)) fun _ => rfl

instance [Borsh G1] [BorshLaw G1] [Borsh G2] [BorshLaw G2] [Borsh Gt] [BorshLaw Gt] : BorshLaw (Ciphertext G1 G2 Gt) :=
  BorshLaw.via (fun x : Ciphertext G1 G2 Gt => (x.c0, x.c, x.cP, x.ct))
    (fun p => (⟨p.1, p.2.1, p.2.2.1, p.2.2.2⟩ : Ciphertext G1 G2 Gt)) fun _ => rfl

instance [Borsh G1] [BorshExact G1] [Borsh G2] [BorshExact G2] [Borsh Gt] [BorshExact Gt] : BorshExact (Ciphertext G1 G2 Gt) :=
  BorshExact.via (fun x : Ciphertext G1 G2 Gt => (x.c0, x.c, x.cP, x.ct))
    (fun p => (⟨p.1, p.2.1, p.2.2.1, p.2.2.2⟩ : Ciphertext G1 G2 Gt)) fun _ => rfl

instance [Borsh G1] [BorshLaw G1] [Borsh G2] [BorshLaw G2] [Borsh Gt] [BorshLaw Gt] : BorshLaw (CpCiphertext G1 G2 Gt) :=
  BorshLaw.via (fun x : CpCiphertext G1 G2 Gt => (x.policy, x.ct))
    (fun p => (⟨p.1, p.2⟩ : CpCiphertext G1 G2 Gt)) fun _ => rfl

instance [Borsh G1] [BorshExact G1] [Borsh G2] [BorshExact G2] [Borsh Gt] [BorshExact Gt] : BorshExact (CpCiphertext G1 G2 Gt) :=
  BorshExact.via (fun x : CpCiphertext G1 G2 Gt => (x.policy, x.ct))
    (fun p => (⟨p.1, p.2⟩ : CpCiphertext G1 G2 Gt)) fun _ => rfl

instance [Borsh G1] [BorshLaw G1] [Borsh G2] [BorshLaw G2] [Borsh Gt] [BorshLaw Gt] : BorshLaw (KpCiphertext G1 G2 Gt) :=
  BorshLaw.via (fun x : KpCiphertext G1 G2 Gt => (x.attr, x.ct))
    (fun p => (⟨p.1, p.2⟩ : KpCiphertext G1 G2 Gt)) fun _ => rfl

instance [Borsh G1] [BorshExact G1] [Borsh G2] [BorshExact G2] [Borsh Gt] [BorshExact Gt] : BorshExact (KpCiphertext G1 G2 Gt) :=
  BorshExact.via (fun x : KpCiphertext G1 G2 Gt => (x.attr, x.ct))
    (fun p => (⟨p.1, p.2⟩ : KpCiphertext G1 G2 Gt)) fun _ => rfl

instance [Borsh G1] [BorshLaw G1] [Borsh G2] [BorshLaw G2] : BorshLaw (SecretKey G1 G2) :=
  BorshLaw.via (fun x : SecretKey G1 G2 => (x.k0, x.k, x.kP))
    (fun p => (⟨p.1, p.2.1, p.2.2⟩ : SecretKey G1 G2)) fun _ => rfl

instance [Borsh G1] [BorshExact G1] [Borsh G2] [BorshExact G2] : BorshExact (SecretKey G1 G2) :=
  BorshExact.via (fun x : SecretKey G1 G2 => (x.k0, x.k, x.kP))
    (fun p => (⟨p.1, p.2.1, p.2.2⟩ : SecretKey G1 G2)) fun _ => rfl

instance [Borsh G1] [BorshLaw G1] [Borsh G2] [BorshLaw G2] : BorshLaw (KpSecretKey G1 G2) :=
  BorshLaw.via (fun x : KpSecretKey G1 G2 => (x.policy, x.sk))
    (fun p => (⟨p.1, p.2⟩ : KpSecretKey G1 G2)) fun _ => rfl

instance [Borsh G1] [BorshExact G1] [Borsh G2] [BorshExact G2] : BorshExact (KpSecretKey G1 G2) :=
  BorshExact.via (fun x : KpSecretKey G1 G2 => (x.policy, x.sk))
    (fun p => (⟨p.1, p.2⟩ : KpSecretKey G1 G2)) fun _ => rfl

instance [Borsh G1] [BorshLaw G1] [Borsh G2] [BorshLaw G2] : BorshLaw (CpSecretKey G1 G2) :=
  BorshLaw.via (fun x : CpSecretKey G1 G2 => (x.attr, x.sk))
    (fun p => (⟨p.1, p.2⟩ : CpSecretKey G1 G2)) fun _ => rfl

instance [Borsh G1] [BorshExact G1] [Borsh G2] [BorshExact G2] : BorshExact (CpSecretKey G1 G2) :=
  BorshExact.via (fun x : CpSecretKey G1 G2 => (x.attr, x.sk))
    (fun p => (⟨p.1, p.2⟩ : CpSecretKey G1 G2)) fun _ => rfl

end Ac17

namespace Lsw

instance [Borsh G1] [BorshLaw G1] [Borsh G2] [BorshLaw G2] [Borsh Gt] [BorshLaw Gt] : BorshLaw (PublicKey G1 G2 Gt) :=
  BorshLaw.via (fun x : PublicKey G1 G2 Gt => (x.g1, x.g2, x.g1B, x.g1B2, x.hB, x.eGgAlpha))
    (fun p => (⟨p.1, p.2.1, p.2.2.1, p.2.2.2.1, p.2.2.2.2.1, p.2.2.2.2.2⟩ : PublicKey G1 G2 Gt)) fun _ => rfl

instance [Borsh G1] [BorshExact G1] [Borsh G2] [BorshExact G2] [Borsh Gt] [BorshExact Gt] : BorshExact (PublicKey G1 G2 Gt) :=
  BorshExact.via (fun x : PublicKey G1 G2 Gt => (x.g1, x.g2, x.g1B, x.g1B2, x.hB, x.eGgAlpha))
    (fun p => (⟨p.1, p.2.1, p.2.2.1, p.2.2.2.1, p.2.2.2.2.1, p.2.2.2.2.2⟩ : PublicKey G1 G2 Gt)) fun _ => rfl

instance [Borsh F] [BorshLaw F] [Borsh G1] [BorshLaw G1] [Borsh G2] [BorshLaw G2] : BorshLaw (MasterKey F G1 G2) :=
  BorshLaw.via (fun x : MasterKey F G1 G2 => (x.alpha1, x.alpha2, x.b, x.hG1, x.hG2))
    (fun p => (⟨p.1, p.2.1, p.2.2.1, p.2.2.2.1, p.2.2.2.2⟩ : MasterKey F G1 G2)) fun _ => rfl

instance [Borsh F] [BorshExact F] [Borsh G1] [BorshExact G1] [Borsh G2] [BorshExact G2] : BorshExact (MasterKey F G1 G2) :=
  BorshExact.via (fun x : MasterKey F G1 G2 => (x.alpha1, x.alpha2, x.b, x.hG1, x.hG2))
    (fun p => (⟨p.1, p.2.1, p.2.2.1, p.2.2.2.1, p.2.2.2.2⟩ : MasterKey F G1 G2)) fun _ => rfl

instance [Borsh G1] [BorshLaw G1] [Borsh G2] [BorshLaw G2] : BorshLaw (KeyAttr G1 G2) :=
  BorshLaw.via (fun x : KeyAttr G1 G2 => (x.name, x.d1, x.d2, x.d3, x.d4, x.d5))
    (fun p => (⟨p.1, p.2.1, p.2.2.1, p.2.2.2.1, p.2.2.2.2.1, p.2.2.2.2.2⟩ : KeyAttr G1 G2)) fun _ => rfl

instance [Borsh G1] [BorshExact G1] [Borsh G2] [BorshExact G2] : BorshExact (KeyAttr G1 G2) :=
  BorshExact.via (fun x : KeyAttr G1 G2 => (x.name, x.d1, x.d2, x.d3, x.d4, x.d5))
    (fun p => (⟨p.1, p.2.1, p.2.2.1, p.2.2.2.1, p.2.2.2.2.1, p.2.2.2.2.2⟩ : KeyAttr G1 G2)) fun _ => rfl

instance [Borsh G1] [BorshLaw G1] [Borsh G2] [BorshLaw G2] : BorshLaw (SecretKey G1 G2) :=
  BorshLaw.via (fun x : SecretKey G1 G2 => (x.policy, x.dj))
    (fun p => (⟨p.1, p.2⟩ : SecretKey G1 G2)) fun _ => rfl

instance [Borsh G1] [BorshExact G1] [Borsh G2] [BorshExact G2] : BorshExact (SecretKey G1 G2) :=
  BorshExact.via (fun x : SecretKey G1 G2 => (x.policy, x.dj))
    (fun p => (⟨p.1, p.2⟩ : SecretKey G1 G2)) fun _ => rfl

instance [Borsh G1] [BorshLaw G1] : BorshLaw (CtAttr G1) :=
  BorshLaw.via (fun x : CtAttr G1 => (x.name, x.e1, x.e2, x.e3))
    (fun p => (⟨p.1, p.2.1, p.2.2.1, p.2.2.2⟩ : CtAttr G1)) fun _ => rfl

instance [Borsh G1] [BorshExact G1] : BorshExact (CtAttr G1) :=
  BorshExact.via (fun x : CtAttr G1 => (x.name, x.e1, x.e2, x.e3))
    (fun p => (⟨p.1, p.2.1, p.2.2.1, p.2.2.2⟩ : CtAttr G1)) fun _ => rfl

instance [Borsh G1] [BorshLaw G1] [Borsh G2] [BorshLaw G2] [Borsh Gt] [BorshLaw Gt] : BorshLaw (Ciphertext G1 G2 Gt) :=
  BorshLaw.via (fun x : Ciphertext G1 G2 Gt => (x.e1, x.e2, x.ej, x.ct))
    (fun p => (⟨p.1, p.2.1, p.2.2.1, p.2.2.2⟩ : Ciphertext G1 G2 Gt)) fun _ => rfl

instance [Borsh G1] [BorshExact G1] [Borsh G2] [BorshExact G2] [Borsh Gt] [BorshExact Gt] : BorshExact (Ciphertext G1 G2 Gt) :=
  BorshExact.via (fun x : Ciphertext G1 G2 Gt => (x.e1, x.e2, x.ej, x.ct))
    (fun p => (⟨p.1, p.2.1, p.2.2.1, p.2.2.2⟩ : Ciphertext G1 G2 Gt)) fun _ => rfl

end Lsw

namespace Aw11

instance [Borsh G1] [BorshLaw G1] [Borsh G2] [BorshLaw G2] : BorshLaw (GlobalKey G1 G2) :=
  BorshLaw.via (fun x : GlobalKey G1 G2 => (x.g1, x.g2))
    (fun p => (⟨p.1, p.2⟩ : GlobalKey G1 G2)) fun _ => rfl

instance [Borsh G1] [BorshExact G1] [Borsh G2] [BorshExact G2] : BorshExact (GlobalKey G1 G2) :=
  BorshExact.via (fun x : GlobalKey G1 G2 => (x.g1, x.g2))
    (fun p => (⟨p.1, p.2⟩ : GlobalKey G1 G2)) fun _ => rfl

instance [Borsh G2] [BorshLaw G2] [Borsh Gt] [BorshLaw Gt] : BorshLaw (PubAttr G2 Gt) :=
  BorshLaw.via (fun x : PubAttr G2 Gt => (x.name, x.e, x.y))
    (fun p => (⟨p.1, p.2.1, p.2.2⟩ : PubAttr G2 Gt)) fun _ => rfl

instance [Borsh G2] [BorshExact G2] [Borsh Gt] [BorshExact Gt] : BorshExact (PubAttr G2 Gt) :=
  BorshExact.via (fun x : PubAttr G2 Gt => (x.name, x.e, x.y))
    (fun p => (⟨p.1, p.2.1, p.2.2⟩ : PubAttr G2 Gt)) fun _ => rfl

instance [Borsh G2] [BorshLaw G2] [Borsh Gt] [BorshLaw Gt] : BorshLaw (PublicKey G2 Gt) :=
  BorshLaw.via (fun x : PublicKey G2 Gt => x.attr)
    (fun p => (⟨p⟩ : PublicKey G2 Gt)) fun _ => rfl

instance [Borsh G2] [BorshExact G2] [Borsh Gt] [BorshExact Gt] : BorshExact (PublicKey G2 Gt) :=
  BorshExact.via (fun x : PublicKey G2 Gt => x.attr)
    (fun p => (⟨p⟩ : PublicKey G2 Gt)) fun _ => rfl

instance [Borsh F] [BorshLaw F] : BorshLaw (MskAttr F) :=
  BorshLaw.via (fun x : MskAttr F => (x.name, x.alpha, x.y))
    (fun p => (⟨p.1, p.2.1, p.2.2⟩ : MskAttr F)) fun _ => rfl

instance [Borsh F] [BorshExact F] : BorshExact (MskAttr F) :=
  BorshExact.via (fun x : MskAttr F => (x.name, x.alpha, x.y))
    (fun p => (⟨p.1, p.2.1, p.2.2⟩ : MskAttr F)) fun _ => rfl

instance [Borsh F] [BorshLaw F] : BorshLaw (MasterKey F) :=
  BorshLaw.via (fun x : MasterKey F => x.attr)
    (fun p => (⟨p⟩ : MasterKey F)) fun _ => rfl

instance [Borsh F] [BorshExact F] : BorshExact (MasterKey F) :=
  BorshExact.via (fun x : MasterKey F => x.attr)
    (fun p => (⟨p⟩ : MasterKey F)) fun _ => rfl

instance [Borsh G2] [BorshLaw G2] [Borsh Gt] [BorshLaw Gt] : BorshLaw (CtAttr G2 Gt) :=
  BorshLaw.via (fun x : CtAttr G2 Gt => (x.name, x.c1, x.c2, x.c3))
    (fun p => (⟨p.1, p.2.1, p.2.2.1, p.2.2.2⟩ : CtAttr G2 Gt)) fun _ => rfl

instance [Borsh G2] [BorshExact G2] [Borsh Gt] [BorshExact Gt] : BorshExact (CtAttr G2 Gt) :=
  BorshExact.via (fun x : CtAttr G2 Gt => (x.name, x.c1, x.c2, x.c3))
    (fun p => (⟨p.1, p.2.1, p.2.2.1, p.2.2.2⟩ : CtAttr G2 Gt)) fun _ => rfl

instance [Borsh G2] [BorshLaw G2] [Borsh Gt] [BorshLaw Gt] : BorshLaw (Ciphertext G2 Gt) :=
  BorshLaw.via (fun x : Ciphertext G2 Gt => (x.policy, x.c0, x.c, x.ct))
    (fun p => (⟨p.1, p.2.1, p.2.2.1, p.2.2.2⟩ : Ciphertext G2 Gt)) fun _ => rfl

instance [Borsh G2] [BorshExact G2] [Borsh Gt] [BorshExact Gt] : BorshExact (Ciphertext G2 Gt) :=
  BorshExact.via (fun x : Ciphertext G2 Gt => (x.policy, x.c0, x.c, x.ct))
    (fun p => (⟨p.1, p.2.1, p.2.2.1, p.2.2.2⟩ : Ciphertext G2 Gt)) fun _ => rfl

instance [Borsh G1] [BorshLaw G1] : BorshLaw (SecretKey G1) :=
  BorshLaw.via (fun x : SecretKey G1 => (x.gid, x.attr))
    (fun p => (⟨p.1, p.2⟩ : SecretKey G1)) fun _ => rfl

instance [Borsh G1] [BorshExact G1] : BorshExact (SecretKey G1) :=
  BorshExact.via (fun x : SecretKey G1 => (x.gid, x.attr))
    (fun p => (⟨p.1, p.2⟩ : SecretKey G1)) fun _ => rfl

end Aw11

namespace Bdabe

instance [Borsh G1] [BorshLaw G1] [Borsh G2] [BorshLaw G2] [Borsh Gt] [BorshLaw Gt] : BorshLaw (PublicKey G1 G2 Gt) :=
  BorshLaw.via (fun x : PublicKey G1 G2 Gt => (x.g1, x.g2, x.p1, x.p2, x.eGgY))
    (fun p => (⟨p.1, p.2.1, p.2.2.1, p.2.2.2.1, p.2.2.2.2⟩ : PublicKey G1 G2 Gt)) fun _ => rfl

instance [Borsh G1] [BorshExact G1] [Borsh G2] [BorshExact G2] [Borsh Gt] [BorshExact Gt] : BorshExact (PublicKey G1 G2 Gt) :=
  BorshExact.via (fun x : PublicKey G1 G2 Gt => (x.g1, x.g2, x.p1, x.p2, x.eGgY))
    (fun p => (⟨p.1, p.2.1, p.2.2.1, p.2.2.2.1, p.2.2.2.2⟩ : PublicKey G1 G2 Gt)) fun _ => rfl

instance [Borsh F] [BorshLaw F] : BorshLaw (MasterKey F) :=
  BorshLaw.via (fun x : MasterKey F => x.y)
    (fun p => (⟨p⟩ : MasterKey F)) fun _ => rfl

instance [Borsh F] [BorshExact F] : BorshExact (MasterKey F) :=
  BorshExact.via (fun x : MasterKey F => x.y)
    (fun p => (⟨p⟩ : MasterKey F)) fun _ => rfl

instance [Borsh G1] [BorshLaw G1] [Borsh G2] [BorshLaw G2] : BorshLaw (PublicUserKey G1 G2) :=
  BorshLaw.via (fun x : PublicUserKey G1 G2 => (x.u, x.u1, x.u2))
    (fun p => (⟨p.1, p.2.1, p.2.2⟩ : PublicUserKey G1 G2)) fun _ => rfl

instance [Borsh G1] [BorshExact G1] [Borsh G2] [BorshExact G2] : BorshExact (PublicUserKey G1 G2) :=
  BorshExact.via (fun x : PublicUserKey G1 G2 => (x.u, x.u1, x.u2))
    (fun p => (⟨p.1, p.2.1, p.2.2⟩ : PublicUserKey G1 G2)) fun _ => rfl

instance [Borsh G1] [BorshLaw G1] [Borsh G2] [BorshLaw G2] : BorshLaw (SecretUserKey G1 G2) :=
  BorshLaw.via (fun x : SecretUserKey G1 G2 => (x.u1, x.u2))
    (fun p => (⟨p.1, p.2⟩ : SecretUserKey G1 G2)) fun _ => rfl

instance [Borsh G1] [BorshExact G1] [Borsh G2] [BorshExact G2] : BorshExact (SecretUserKey G1 G2) :=
  BorshExact.via (fun x : SecretUserKey G1 G2 => (x.u1, x.u2))
    (fun p => (⟨p.1, p.2⟩ : SecretUserKey G1 G2)) fun _ => rfl

instance [Borsh G1] [BorshLaw G1] [Borsh G2] [BorshLaw G2] : BorshLaw (SecretAttributeKey G1 G2) :=
  BorshLaw.via (fun x : SecretAttributeKey G1 G2 => (x.attr, x.au1, x.au2))
    (fun p => (⟨p.1, p.2.1, p.2.2⟩ : SecretAttributeKey G1 G2)) fun _ => rfl

instance [Borsh G1] [BorshExact G1] [Borsh G2] [BorshExact G2] : BorshExact (SecretAttributeKey G1 G2) :=
  BorshExact.via (fun x : SecretAttributeKey G1 G2 => (x.attr, x.au1, x.au2))
    (fun p => (⟨p.1, p.2.1, p.2.2⟩ : SecretAttributeKey G1 G2)) fun _ => rfl

instance [Borsh G1] [BorshLaw G1] [Borsh G2] [BorshLaw G2] : BorshLaw (UserKey G1 G2) :=
  BorshLaw.via (fun x : UserKey G1 G2 => (x.sk, x.pk, x.skA))
    (fun p => (⟨p.1, p.2.1, p.2.2⟩ : UserKey G1 G2)) fun _ => rfl

instance [Borsh G1] [BorshExact G1] [Borsh G2] [BorshExact G2] : BorshExact (UserKey G1 G2) :=
  BorshExact.via (fun x : UserKey G1 G2 => (x.sk, x.pk, x.skA))
    (fun p => (⟨p.1, p.2.1, p.2.2⟩ : UserKey G1 G2)) fun _ => rfl

instance [Borsh G1] [BorshLaw G1] [Borsh G2] [BorshLaw G2] [Borsh Gt] [BorshLaw Gt] : BorshLaw (PublicAttributeKey G1 G2 Gt) :=
  BorshLaw.via (fun x : PublicAttributeKey G1 G2 Gt => (x.attr, x.a1, x.a2, x.a3))
    (fun p => (⟨p.1, p.2.1, p.2.2.1, p.2.2.2⟩ : PublicAttributeKey G1 G2 Gt)) fun _ => rfl

instance [Borsh G1] [BorshExact G1] [Borsh G2] [BorshExact G2] [Borsh Gt] [BorshExact Gt] : BorshExact (PublicAttributeKey G1 G2 Gt) :=
  BorshExact.via (fun x : PublicAttributeKey G1 G2 Gt => (x.attr, x.a1, x.a2, x.a3))
    (fun p => (⟨p.1, p.2.1, p.2.2.1, p.2.2.2⟩ : PublicAttributeKey G1 G2 Gt)) fun _ => rfl

instance [Borsh F] [BorshLaw F] [Borsh G1] [BorshLaw G1] [Borsh G2] [BorshLaw G2] : BorshLaw (SecretAuthorityKey F G1 G2) :=
  BorshLaw.via (fun x : SecretAuthorityKey F G1 G2 => (x.name, x.a1, x.a2, x.a3))
    (fun p => (⟨p.1, p.2.1, p.2.2.1, p.2.2.2⟩ : SecretAuthorityKey F G1 G2)) fun _ => rfl

instance [Borsh F] [BorshExact F] [Borsh G1] [BorshExact G1] [Borsh G2] [BorshExact G2] : BorshExact (SecretAuthorityKey F G1 G2) :=
  BorshExact.via (fun x : SecretAuthorityKey F G1 G2 => (x.name, x.a1, x.a2, x.a3))
    (fun p => (⟨p.1, p.2.1, p.2.2.1, p.2.2.2⟩ : SecretAuthorityKey F G1 G2)) fun _ => rfl

instance [Borsh G1] [BorshLaw G1] [Borsh G2] [BorshLaw G2] [Borsh Gt] [BorshLaw Gt] : BorshLaw (CiphertextTuple G1 G2 Gt) :=
  BorshLaw.via (fun x : CiphertextTuple G1 G2 Gt => (x.attr, x.e1, x.e2, x.e3, x.e4, x.e5))
    (fun p => (⟨p.1, p.2.1, p.2.2.1, p.2.2.2.1, p.2.2.2.2.1, p.2.2.2.2.2⟩ : CiphertextTuple G1 G2 Gt)) fun _ => rfl

instance [Borsh G1] [BorshExact G1] [Borsh G2] [BorshExact G2] [Borsh Gt] [BorshExact Gt] : BorshExact (CiphertextTuple G1 G2 Gt) :=
  BorshExact.via (fun x : CiphertextTuple G1 G2 Gt => (x.attr, x.e1, x.e2, x.e3, x.e4, x.e5))
    (fun p => (⟨p.1, p.2.1, p.2.2.1, p.2.2.2.1, p.2.2.2.2.1, p.2.2.2.2.2⟩ : CiphertextTuple G1 G2 Gt)) fun _ => rfl

instance [Borsh G1] [BorshLaw G1] [Borsh G2] [BorshLaw G2] [Borsh Gt] [BorshLaw Gt] : BorshLaw (Ciphertext G1 G2 Gt) :=
  BorshLaw.via (fun x : Ciphertext G1 G2 Gt => (x.policy, x.j, x.ct))
    (fun p => (⟨p.1, p.2.1, p.2.2⟩ : Ciphertext G1 G2 Gt)) fun _ => rfl

instance [Borsh G1] [BorshExact G1] [Borsh G2] [BorshExact G2] [Borsh Gt] [BorshExact Gt] : BorshExact (Ciphertext G1 G2 Gt) :=
  BorshExact.via (fun x : Ciphertext G1 G2 Gt => (x.policy, x.j, x.ct))
    (fun p => (⟨p.1, p.2.1, p.2.2⟩ : Ciphertext G1 G2 Gt)) fun _ => rfl

end Bdabe

namespace Mke08

instance [Borsh G1] [BorshLaw G1] [Borsh G2] [BorshLaw G2] [Borsh Gt] [BorshLaw Gt] : BorshLaw (PublicKey G1 G2 Gt) :=
  BorshLaw.via (fun x : PublicKey G1 G2 Gt => (x.g1, x.g2, x.p1, x.p2, x.eGgY1, x.eGgY2))
    (fun p => (⟨p.1, p.2.1, p.2.2.1, p.2.2.2.1, p.2.2.2.2.1, p.2.2.2.2.2⟩ : PublicKey G1 G2 Gt)) fun _ => rfl

instance [Borsh G1] [BorshExact G1] [Borsh G2] [BorshExact G2] [Borsh Gt] [BorshExact Gt] : BorshExact (PublicKey G1 G2 Gt) :=
  BorshExact.via (fun x : PublicKey G1 G2 Gt => (x.g1, x.g2, x.p1, x.p2, x.eGgY1, x.eGgY2))
    (fun p => (⟨p.1, p.2.1, p.2.2.1, p.2.2.2.1, p.2.2.2.2.1, p.2.2.2.2.2⟩ : PublicKey G1 G2 Gt)) fun _ => rfl

instance [Borsh G1] [BorshLaw G1] [Borsh G2] [BorshLaw G2] : BorshLaw (MasterKey G1 G2) :=
  BorshLaw.via (fun x : MasterKey G1 G2 => (x.g1, x.g2))
    (fun p => (⟨p.1, p.2⟩ : MasterKey G1 G2)) fun _ => rfl

instance [Borsh G1] [BorshExact G1] [Borsh G2] [BorshExact G2] : BorshExact (MasterKey G1 G2) :=
  BorshExact.via (fun x : MasterKey G1 G2 => (x.g1, x.g2))
    (fun p => (⟨p.1, p.2⟩ : MasterKey G1 G2)) fun _ => rfl

instance [Borsh G1] [BorshLaw G1] [Borsh G2] [BorshLaw G2] : BorshLaw (PublicUserKey G1 G2) :=
  BorshLaw.via (fun x : PublicUserKey G1 G2 => (x.name, x.g1, x.g2))
    (fun p => (⟨p.1, p.2.1, p.2.2⟩ : PublicUserKey G1 G2)) fun _ => rfl

instance [Borsh G1] [BorshExact G1] [Borsh G2] [BorshExact G2] : BorshExact (PublicUserKey G1 G2) :=
  BorshExact.via (fun x : PublicUserKey G1 G2 => (x.name, x.g1, x.g2))
    (fun p => (⟨p.1, p.2.1, p.2.2⟩ : PublicUserKey G1 G2)) fun _ => rfl

instance [Borsh G1] [BorshLaw G1] [Borsh G2] [BorshLaw G2] : BorshLaw (SecretUserKey G1 G2) :=
  BorshLaw.via (fun x : SecretUserKey G1 G2 => (x.g1, x.g2))
    (fun p => (⟨p.1, p.2⟩ : SecretUserKey G1 G2)) fun _ => rfl

instance [Borsh G1] [BorshExact G1] [Borsh G2] [BorshExact G2] : BorshExact (SecretUserKey G1 G2) :=
  BorshExact.via (fun x : SecretUserKey G1 G2 => (x.g1, x.g2))
    (fun p => (⟨p.1, p.2⟩ : SecretUserKey G1 G2)) fun _ => rfl

instance [Borsh F] [BorshLaw F] : BorshLaw (SecretAuthorityKey F) :=
  BorshLaw.via (fun x : SecretAuthorityKey F => (x.name, x.r))
    (fun p => (⟨p.1, p.2⟩ : SecretAuthorityKey F)) fun _ => rfl

instance [Borsh F] [BorshExact F] : BorshExact (SecretAuthorityKey F) :=
  BorshExact.via (fun x : SecretAuthorityKey F => (x.name, x.r))
    (fun p => (⟨p.1, p.2⟩ : SecretAuthorityKey F)) fun _ => rfl

instance [Borsh G1] [BorshLaw G1] [Borsh G2] [BorshLaw G2] [Borsh Gt] [BorshLaw Gt] : BorshLaw (PublicAttributeKey G1 G2 Gt) :=
  BorshLaw.via (fun x : PublicAttributeKey G1 G2 Gt => (x.attr, x.g1, x.g2, x.gt1, x.gt2))
    (fun p => (⟨p.1, p.2.1, p.2.2.1, p.2.2.2.1, p.2.2.2.2⟩ : PublicAttributeKey G1 G2 Gt)) fun _ => rfl

instance [Borsh G1] [BorshExact G1] [Borsh G2] [BorshExact G2] [Borsh Gt] [BorshExact Gt] : BorshExact (PublicAttributeKey G1 G2 Gt) :=
  BorshExact.via (fun x : PublicAttributeKey G1 G2 Gt => (x.attr, x.g1, x.g2, x.gt1, x.gt2))
    (fun p => (⟨p.1, p.2.1, p.2.2.1, p.2.2.2.1, p.2.2.2.2⟩ : PublicAttributeKey G1 G2 Gt)) fun _ => rfl

instance [Borsh G1] [BorshLaw G1] [Borsh G2] [BorshLaw G2] : BorshLaw (SecretAttributeKey G1 G2) :=
  BorshLaw.via (fun x : SecretAttributeKey G1 G2 => (x.attr, x.g1, x.g2))
    (fun p => (⟨p.1, p.2.1, p.2.2⟩ : SecretAttributeKey G1 G2)) fun _ => rfl

instance [Borsh G1] [BorshExact G1] [Borsh G2] [BorshExact G2] : BorshExact (SecretAttributeKey G1 G2) :=
  BorshExact.via (fun x : SecretAttributeKey G1 G2 => (x.attr, x.g1, x.g2))
    (fun p => (⟨p.1, p.2.1, p.2.2⟩ : SecretAttributeKey G1 G2)) fun _ => rfl

instance [Borsh G1] [BorshLaw G1] [Borsh G2] [BorshLaw G2] : BorshLaw (UserKey G1 G2) :=
  BorshLaw.via (fun x : UserKey G1 G2 => (x.sk, x.pk, x.skA))
    (fun p => (⟨p.1, p.2.1, p.2.2⟩ : UserKey G1 G2)) fun _ => rfl

instance [Borsh G1] [BorshExact G1] [Borsh G2] [BorshExact G2] : BorshExact (UserKey G1 G2) :=
  BorshExact.via (fun x : UserKey G1 G2 => (x.sk, x.pk, x.skA))
    (fun p => (⟨p.1, p.2.1, p.2.2⟩ : UserKey G1 G2)) fun _ => rfl

instance [Borsh G1] [BorshLaw G1] [Borsh G2] [BorshLaw G2] [Borsh Gt] [BorshLaw Gt] : BorshLaw (CTConjunction G1 G2 Gt) :=
  BorshLaw.via (fun x : CTConjunction G1 G2 Gt => (x.str, x.j1, x.j2, x.j3, x.j4, x.j5, x.j6))
    (fun p => (⟨p.1, p.2.1, p.2.2.1, p.2.2.2.1, p.2.2.2.2.1, p.2.2.2.2.2.1, p.2.2.2.2.2.2⟩ : CTConjunction G1 G2 Gt)) fun _ => rfl

instance [Borsh G1] [BorshExact G1] [Borsh G2] [BorshExact G2] [Borsh Gt] [BorshExact Gt] : BorshExact (CTConjunction G1 G2 Gt) :=
  BorshExact.via (fun x : CTConjunction G1 G2 Gt => (x.str, x.j1, x.j2, x.j3, x.j4, x.j5, x.j6))
    (fun p => (⟨p.1, p.2.1, p.2.2.1, p.2.2.2.1, p.2.2.2.2.1, p.2.2.2.2.2.1, p.2.2.2.2.2.2⟩ : CTConjunction G1 G2 Gt)) fun _ => rfl

instance [Borsh G1] [BorshLaw G1] [Borsh G2] [BorshLaw G2] [Borsh Gt] [BorshLaw Gt] : BorshLaw (Ciphertext G1 G2 Gt) :=
  BorshLaw.via (fun x : Ciphertext G1 G2 Gt => (x.policy, x.e, x.ct))
    (fun p => (⟨p.1, p.2.1, p.2.2⟩ : Ciphertext G1 G2 Gt)) fun _ => rfl

instance [Borsh G1] [BorshExact G1] [Borsh G2] [BorshExact G2] [Borsh Gt] [BorshExact Gt] : BorshExact (Ciphertext G1 G2 Gt) :=
  BorshExact.via (fun x : Ciphertext G1 G2 Gt => (x.policy, x.e, x.ct))
    (fun p => (⟨p.1, p.2.1, p.2.2⟩ : Ciphertext G1 G2 Gt)) fun _ => rfl

end Mke08

namespace Yct14

instance : BorshExact (Attribute F Gt) :=
  BorshExact.via (fun x : Attribute F Gt => x.name) (fun p => (⟨p, none⟩ : Attribute F Gt)) fun _ => rfl

instance [Borsh Gt] [BorshExact Gt] : BorshExact (PublicKey F Gt) :=
  BorshExact.via (fun x : PublicKey F Gt => (x.g, x.attributes)) (fun p => (⟨p.1, p.2⟩ : PublicKey F Gt)) fun _ => rfl

instance [Borsh F] [BorshExact F] : BorshExact (MasterKey F Gt) :=
  BorshExact.via (fun x : MasterKey F Gt => (x.s, x.attributes)) (fun p => (⟨p.1, p.2⟩ : MasterKey F Gt)) fun _ => rfl

instance : BorshExact (SecretKey F Gt) :=
  BorshExact.via (fun x : SecretKey F Gt => (x.policy, x.du)) (fun p => (⟨p.1, p.2⟩ : SecretKey F Gt)) fun _ => rfl

instance : BorshExact (Ciphertext F Gt) :=
  BorshExact.via (fun x : Ciphertext F Gt => (x.attributes, x.ct)) (fun p => (⟨p.1, p.2⟩ : Ciphertext F Gt)) fun _ => rfl

end Yct14

end Rabe
