import Mathlib.Data.ENat.Basic
import Verif.Props.Contents
import Verif.Model.BorshTypes
import Verif.Instance.Console
import Verif.Props.Ffi

/-!
# C90: the size of a serialised key or ciphertext

The number of bytes that `borsh` writes for a key or a ciphertext is determined by the attribute names or the policy text
and, for a ciphertext, by the length of the plaintext: it does not depend on the plaintext itself, on the keys or on the
random numbers. Assumptions: scalars and group elements have encodings of a fixed length (crate `rabe_bn`) and AES-GCM
adds 16 bytes.
-/

set_option linter.unusedSectionVars false

namespace Rabe

variable {F G1 G2 Gt : Type} [Field F] [DecidableEq F] [AddCommGroup G1] [Module F G1]
  [AddCommGroup G2] [Module F G2] [AddCommGroup Gt] [Module F Gt]

namespace Sizes

variable {α β : Type}

/-- Number of bytes written for a value; infinite if serialisation fails. -/
def size [Borsh α] (x : α) : ℕ∞ :=
  match Borsh.ser x with
  | some b => b.length
  | none => ⊤

/-- The encodings of all values of a type have `n` bytes (assumption on the crate `rabe_bn`). -/
def Fixed (α : Type) [Borsh α] (n : ℕ) : Prop := ∀ x : α, ∃ b, Borsh.ser x = some b ∧ b.length = n

/-- AES-GCM appends a tag of 16 bytes (assumption on the crate `aes_gcm`). -/
def Tagged (env : Env F G1 G2 Gt) : Prop := ∀ k n m c, env.aeadEnc k n m = some c → c.length = m.length + 16

/-- Bytes of the count in front of `n` elements; more than `2 ^ 32 - 1` elements are refused. -/
def vec (n : ℕ) : ℕ∞ := if n < 2 ^ 32 then 4 else ⊤

/-- Bytes of a string. -/
def str (s : Str) : ℕ∞ := vec (utf8 s).length + (utf8 s).length

/-- Bytes of a list of strings. -/
def strs (l : List Str) : ℕ∞ := vec l.length + (l.map str).sum

/-- Bytes of the payload of a ciphertext for a plaintext of `n` bytes: nonce, encrypted plaintext, tag. -/
def payload (n : ℕ) : ℕ∞ := vec (12 + n + 16) + (12 + n + 16 : ℕ)

theorem size_fixed [Borsh α] {n : ℕ} (h : Fixed α n) (x : α) : size x = n := by
  obtain ⟨b, hb, hn⟩ := h x
  simp [size, hb, hn]

theorem size_pair [Borsh α] [Borsh β] (x : α × β) : size x = size x.1 + size x.2 := by
  simp only [size, Borsh.ser]
  cases Borsh.ser x.1 <;> cases Borsh.ser x.2 <;> simp

theorem size_via [Borsh α] (out : β → α) (back : α → β) (b : β) : @size β (Borsh.via out back) b = size (out b) := rfl

theorem size_byte (b : UInt8) : size b = 1 := rfl

theorem size_lang (l : PolicyLanguage) : size l = 1 := by cases l <;> rfl

theorem serLen_length (n : ℕ) : (match Borsh.serLen n with | some b => (b.length : ℕ∞) | none => ⊤) = vec n := by
  simp only [Borsh.serLen, vec]
  split <;> rename_i h <;> split at h <;> simp_all [Borsh.le32]
  subst h; rfl

theorem size_str (s : Str) : size s = str s := by
  have h := serLen_length (utf8 s).length
  simp only [size, str, Borsh.ser, ← h]
  cases Borsh.serLen (utf8 s).length <;> simp

theorem size_all [Borsh α] (l : List α) :
    (match Borsh.serAll l with | some b => (b.length : ℕ∞) | none => ⊤) = (l.map size).sum := by
  induction l with
  | nil => rfl
  | cons x xs ih =>
    simp only [Borsh.serAll, List.map_cons, List.sum_cons, ← ih, size]
    cases Borsh.ser x <;> cases Borsh.serAll xs <;> simp

theorem size_list [Borsh α] (l : List α) : size l = vec l.length + (l.map size).sum := by
  have h := serLen_length l.length
  have h' := size_all l
  simp only [size, Borsh.ser, ← h, ← h']
  cases Borsh.serLen l.length <;> cases Borsh.serAll l <;> simp

theorem size_strs (l : List Str) : size l = strs l := by
  rw [size_list, strs]
  exact congrArg _ (congrArg _ (List.map_congr_left fun s _ => size_str s))

theorem size_bytes (l : Bytes) : size l = vec l.length + l.length := by
  rw [size_list]
  congr 1
  induction l with
  | nil => rfl
  | cons x xs ih => rw [List.map_cons, List.sum_cons, ih, size_byte, List.length_cons, Nat.cast_succ, add_comm]

/-- A list of named entries, all other fields of which have a fixed size. -/
theorem size_named [Borsh α] {γ : Type} {name : α → γ} {f : γ → ℕ∞} {l : List α} {ns : List γ} (hl : l.map name = ns)
    (hs : ∀ x ∈ l, size x = f (name x)) : size l = vec ns.length + (ns.map f).sum := by
  subst hl
  rw [size_list, List.length_map, List.map_map]
  exact congrArg _ (congrArg _ (List.map_congr_left hs))

/-- The same list in another order. -/
theorem size_perm {γ : Type} {f : γ → ℕ∞} {ns ns' : List γ} (h : ns.Perm ns') :
    vec ns.length + (ns.map f).sum = vec ns'.length + (ns'.map f).sum := by
  rw [h.length_eq, (h.map f).sum_eq]

theorem genBytes_length {n : ℕ} : ∀ {t : Tape F G1 G2 Gt} {b t'}, RM.genBytes n t = .ok (b, t') → b.length = n := by
  intro t b t' h
  simp only [RM.genBytes, Res.ok.injEq, Prod.mk.injEq] at h
  obtain ⟨rfl, _⟩ := h
  simp

theorem size_payload {env : Env F G1 G2 Gt} (htag : Tagged env) {msg : Gt} {m d : Bytes} {t t'}
    (h : encryptSymmetric env msg m t = .ok (d, t')) : size d = payload m.length := by
  simp only [encryptSymmetric, RM.bind_ok] at h
  obtain ⟨n, u, hn, h⟩ := h
  have hl := genBytes_length hn
  cases hc : env.aeadEnc (env.kdf msg) n m with
  | none => simp [hc] at h
  | some c =>
    simp only [hc, RM.pure_ok] at h
    obtain ⟨rfl, _⟩ := h
    rw [size_bytes, payload, List.length_append, hl, htag _ _ _ _ hc]
    rfl

end Sizes

open Sizes

/-! ## BSW -/

/-- **C90, BSW keys.** -/
theorem Bsw.C90_keygen [Borsh G1] [Borsh G2] {n1 n2 : ℕ} (h1 : Fixed G1 n1) (h2 : Fixed G2 n2)
    (env : Env F G1 G2 Gt) (pk msk) (attrs : List Str) (t sk t')
    (h : Bsw.keygen env pk msk attrs t = .ok (some sk, t')) :
    size sk = n2 + (vec attrs.length + (attrs.map fun a => str a + (n1 + n2)).sum) := by
  obtain ⟨_, hn⟩ := Bsw.C71_keygen env pk msk attrs t _ t' h
  refine (size_pair (sk.d, sk.dJ)).trans ?_
  rw [size_fixed h2, size_named hn (f := fun a => str a + (n1 + n2)) fun x _ => ?_]
  refine (size_pair (x.string, x.g1, x.g2)).trans ?_
  rw [size_pair, size_fixed h1, size_fixed h2, size_str]

/-- **C90, BSW ciphertexts.** -/
theorem Bsw.C90_encrypt [Borsh G1] [Borsh G2] [Borsh Gt] {n1 n2 nt : ℕ} (h1 : Fixed G1 n1) (h2 : Fixed G2 n2)
    (ht : Fixed Gt nt) (env : Env F G1 G2 Gt) (htag : Tagged env) (pk) (text : Str) (lang : PolicyLanguage) (p : Pol)
    (hp : Denotes text lang p) (m : Bytes) (t ct t') (h : Bsw.encrypt env pk text lang m t = .ok (ct, t')) :
    size ct = str text + 1 + (n1 + (nt + (vec p.leaves.length +
      (p.leaves.map fun l => str (l.1 ++ '_' :: natStr l.2) + (n1 + n2)).sum + payload m.length))) := by
  obtain ⟨e, hn⟩ := Bsw.C71_encrypt env pk text lang p hp m t ct t' h
  simp only [Bsw.encrypt, RM.bind_ok, RM.pure_ok] at h
  obtain ⟨_, _, _, _, _, _, _, _, _, _, _, _, sh, _, _, d, _, hd, hct, _⟩ := h
  refine (size_pair (ct.policy, ct.c, ct.cP, ct.cY, ct.data)).trans ?_
  have hdata : size ct.data = payload m.length := by rw [hct]; exact size_payload htag hd
  rw [size_pair, size_pair, size_pair, size_pair, hdata, size_fixed h1, size_fixed ht, e, size_str, size_lang,
    size_named hn (f := fun a => str a + (n1 + n2)) fun x _ => ?_]
  · simp [Function.comp_def]
  refine (size_pair (x.string, x.g1, x.g2)).trans ?_
  rw [size_pair, size_fixed h1, size_fixed h2, size_str]

/-! ## AC17 -/

namespace Ac17

theorem size_entry [Borsh G1] {n1 : ℕ} (h1 : Fixed G1 n1) {x : Str × List G1} (hx : x.2.length = 3) :
    size x = str x.1 + (4 + 3 * n1) := by
  rw [size_pair, size_str, size_list, hx, vec, if_pos (by norm_num)]
  obtain ⟨a, b, c, e⟩ := List.length_eq_three.mp hx
  rw [e]
  simp only [List.map_cons, List.map_nil, List.sum_cons, List.sum_nil, size_fixed h1]
  ring

theorem size_three [Borsh G2] {n2 : ℕ} (h2 : Fixed G2 n2) {l : List G2} (hl : l.length = 3) : size l = 4 + 3 * n2 := by
  rw [size_list, hl, vec, if_pos (by norm_num)]
  obtain ⟨a, b, c, rfl⟩ := List.length_eq_three.mp hl
  simp only [List.map_cons, List.map_nil, List.sum_cons, List.sum_nil, size_fixed h2]
  ring

theorem brVec_length {msk : MasterKey F G1 G2} {r0 r1 : F} {br} (h : brVec msk r0 r1 = .ok br) : br.length = 3 := by
  simp only [brVec, Res.bind_eq_ok, Res.ok.injEq] at h
  obtain ⟨_, _, _, _, rfl⟩ := h
  rfl

theorem c0Vec_length {pk : PublicKey G1 G2 Gt} {s0 s1 : F} {c} (h : c0Vec pk s0 s1 = .ok c) : c.length = 3 := by
  simp only [c0Vec, Res.bind_eq_ok, Res.ok.injEq] at h
  obtain ⟨_, _, _, _, _, _, rfl⟩ := h
  rfl

theorem mapL_all {α β : Type} {f : α → RM F G1 G2 Gt β} {P : β → Prop} {xs : List α} {t ys t'}
    (h : RM.mapL f xs t = .ok (ys, t')) (hf : ∀ x s y s', f x s = .ok (y, s') → P y) : ∀ y ∈ ys, P y := by
  have h' := RM.mapL_ok h
  clear h
  induction h' with
  | nil => simp
  | cons a _ ih =>
    obtain ⟨s, s', a⟩ := a
    simp only [List.mem_cons, forall_eq_or_imp]
    exact ⟨hf _ _ _ _ a, ih⟩

/-- **C90, AC17 CP-ABE keys.** -/
theorem C90_cp_keygen [Borsh G1] [Borsh G2] {n1 n2 : ℕ} (h1 : Fixed G1 n1) (h2 : Fixed G2 n2)
    (env : Env F G1 G2 Gt) (msk) (attrs : List Str) (t sk t') (h : cpKeygen env msk attrs t = .ok (sk, t')) :
    size sk = strs attrs + (4 + 3 * n2 + (vec attrs.length + (attrs.map fun a => str a + (4 + 3 * n1)).sum +
      (4 + 3 * n1))) := by
  obtain ⟨e, hn⟩ := C71_cp_keygen env msk attrs t sk t' h
  simp only [cpKeygen] at h
  split at h
  · simp at h
  simp only [RM.bind_ok, RM.lift_ok_iff, RM.pure_ok] at h
  obtain ⟨_, _, _, _, _, _, br, _, ⟨hbr, _⟩, L, _, hL, _, _, _, kp, _, ⟨hkp, _⟩, _, _, _, hsk, _⟩ := h
  refine (size_pair (sk.attr, sk.sk)).trans ?_
  have : size sk.sk = _ := size_pair (sk.sk.k0, sk.sk.k, sk.sk.kP)
  rw [this, size_pair, e, size_strs, size_three h2, size_three h1,
    size_named hn (f := fun a => str a + (4 + 3 * n1)) fun x hx => size_entry h1 ?_]
  · rw [hsk] at hx
    refine mapL_all (P := fun y => y.2.length = 3) hL (fun a s y s' h => ?_) x hx
    simp only [cpKeygenAttr, RM.bind_ok, RM.pure_ok, RM.lift_ok_iff] at h
    obtain ⟨_, _, _, ks, _, ⟨hks, _⟩, rfl, _⟩ := h
    simpa using (mapR_ok hks).length_eq.symm
  · rw [hsk]
    simpa using (mapR_ok hkp).length_eq.symm
  · rw [hsk]
    simpa using brVec_length hbr

/-- **C90, AC17 KP-ABE keys.** -/
theorem C90_kp_keygen [Borsh G1] [Borsh G2] {n1 n2 : ℕ} (h1 : Fixed G1 n1) (h2 : Fixed G2 n2)
    (env : Env F G1 G2 Gt) (msk) (text : Str) (lang : PolicyLanguage) (p : Pol)
    (hp : Denotes text lang p) (hb : p.Binary) (t sk t') (h : kpKeygen env msk text lang t = .ok (sk, t')) :
    size sk = str text + 1 + (4 + 3 * n2 + (vec p.leaves.length + (p.leaves.map fun l => str l.1 + (4 + 3 * n1)).sum +
      4)) := by
  obtain ⟨e, hn, _⟩ := C71_kp_keygen env msk text lang p hp hb t sk t' h
  simp only [kpKeygen, RM.bind_ok, RM.lift_ok_iff, RM.pure_ok] at h
  obtain ⟨_, _, _, _, _, _, _, _, _, _, _, _, _, _, _, br, _, ⟨hbr, _⟩, _, _, _, L, _, hL, hsk, _⟩ := h
  refine (size_pair (sk.policy, sk.sk)).trans ?_
  have : size sk.sk = _ := size_pair (sk.sk.k0, sk.sk.k, sk.sk.kP)
  have hk : size sk.sk.kP = 4 := by rw [hsk, size_list]; rfl
  rw [this, size_pair, size_pair, e, size_str, size_lang, size_three h2, hk,
    size_named rfl (f := fun a => str a + (4 + 3 * n1)) fun x hx => size_entry h1 ?_, size_perm hn]
  · simp [Function.comp_def]
  · rw [hsk] at hx
    refine mapL_all (P := fun y => y.2.length = 3) hL (fun a s y s' h => ?_) x hx
    simp only [kpKeygenRow, RM.bind_ok, RM.pure_ok, RM.lift_ok_iff] at h
    obtain ⟨_, _, _, ks, _, ⟨hks, _⟩, _, _, _, rfl, _⟩ := h
    simpa using (mapR_ok hks).length_eq.symm
  · rw [hsk]
    simpa using brVec_length hbr

/-- **C90, AC17 CP-ABE ciphertexts.** -/
theorem C90_cp_encrypt [Borsh G1] [Borsh G2] [Borsh Gt] {n1 n2 nt : ℕ} (h1 : Fixed G1 n1) (h2 : Fixed G2 n2)
    (ht : Fixed Gt nt) (env : Env F G1 G2 Gt) (htag : Tagged env) (pk) (text : Str) (lang : PolicyLanguage) (p : Pol)
    (hp : Denotes text lang p) (hb : p.Binary) (m : Bytes) (t ct t')
    (h : cpEncrypt env pk text m lang t = .ok (ct, t')) :
    size ct = str text + 1 + (4 + 3 * n2 + (vec p.leaves.length + (p.leaves.map fun l => str l.1 + (4 + 3 * n1)).sum +
      (nt + payload m.length))) := by
  obtain ⟨e, hn, _⟩ := C71_cp_encrypt env pk text lang p hp hb m t ct t' h
  simp only [cpEncrypt, RM.bind_ok, RM.lift_ok_iff, RM.pure_ok] at h
  obtain ⟨_, _, _, msp, _, _, _, _, _, _, _, _, _, _, _, c0, _, ⟨hc0, _⟩, _, _, _, _, _, _, d, _, hd, hct, _⟩ := h
  refine (size_pair (ct.policy, ct.ct)).trans ?_
  have : size ct.ct = _ := size_pair (ct.ct.c0, ct.ct.c, ct.ct.cP, ct.ct.ct)
  have hdata : size ct.ct.ct = payload m.length := by rw [hct]; exact size_payload htag hd
  rw [this, size_pair, size_pair, size_pair, e, size_str, size_lang, size_three h2, hdata, size_fixed ht,
    size_named rfl (f := fun a => str a + (4 + 3 * n1)) fun x hx => size_entry h1 ?_, size_perm hn]
  · simp [Function.comp_def]
  · rw [hct] at hx
    simp only [List.mem_map] at hx
    obtain ⟨r, _, rfl⟩ := hx
    rfl
  · rw [hct]
    exact c0Vec_length hc0

/-- **C90, AC17 KP-ABE ciphertexts.** -/
theorem C90_kp_encrypt [Borsh G1] [Borsh G2] [Borsh Gt] {n1 n2 nt : ℕ} (h1 : Fixed G1 n1) (h2 : Fixed G2 n2)
    (ht : Fixed Gt nt) (env : Env F G1 G2 Gt) (htag : Tagged env) (pk) (attrs : List Str) (m : Bytes) (t ct t')
    (h : kpEncrypt env pk attrs m t = .ok (ct, t')) :
    size ct = strs attrs + (4 + 3 * n2 + (vec attrs.length + (attrs.map fun a => str a + (4 + 3 * n1)).sum +
      (nt + payload m.length))) := by
  obtain ⟨e, hn⟩ := C71_kp_encrypt env pk attrs m t ct t' h
  simp only [kpEncrypt, RM.bind_ok, RM.lift_ok_iff, RM.pure_ok] at h
  obtain ⟨_, _, _, _, _, _, c0, _, ⟨hc0, _⟩, _, _, _, _, _, _, d, _, hd, hct, _⟩ := h
  refine (size_pair (ct.attr, ct.ct)).trans ?_
  have : size ct.ct = _ := size_pair (ct.ct.c0, ct.ct.c, ct.ct.cP, ct.ct.ct)
  have hdata : size ct.ct.ct = payload m.length := by rw [hct]; exact size_payload htag hd
  rw [this, size_pair, size_pair, e, size_strs, size_three h2, hdata, size_fixed ht,
    size_named hn (f := fun a => str a + (4 + 3 * n1)) fun x hx => size_entry h1 ?_]
  · rw [hct] at hx
    simp only [List.mem_map] at hx
    obtain ⟨r, _, rfl⟩ := hx
    rfl
  · rw [hct]
    exact c0Vec_length hc0

end Ac17

/-! ## LSW -/

/-- **C90, LSW keys.** -/
theorem Lsw.C90_keygen [Borsh G1] [Borsh G2] {n1 n2 : ℕ} (h1 : Fixed G1 n1) (h2 : Fixed G2 n2)
    (env : Env F G1 G2 Gt) (pk msk) (text : Str) (lang : PolicyLanguage) (p : Pol)
    (hp : Denotes text lang p) (t sk t') (h : Lsw.keygen env pk msk text lang t = .ok (sk, t')) :
    size sk = str text + 1 + (vec p.leaves.length +
      (p.leaves.map fun l => str (l.1.takeWhile (· != '_')) + (n1 + (n2 + (n1 + (n1 + n1))))).sum) := by
  obtain ⟨e, hn⟩ := Lsw.C71_keygen env pk msk text lang p hp t sk t' h
  refine (size_pair (sk.policy, sk.dj)).trans ?_
  rw [size_pair, e, size_str, size_lang,
    size_named hn (f := fun a => str a + (n1 + (n2 + (n1 + (n1 + n1))))) fun x _ => ?_]
  · simp [Function.comp_def]
  refine (size_pair (x.name, x.d1, x.d2, x.d3, x.d4, x.d5)).trans ?_
  simp only [size_pair, size_fixed h1, size_fixed h2, size_str]

/-- **C90, LSW ciphertexts.** -/
theorem Lsw.C90_encrypt [Borsh G1] [Borsh G2] [Borsh Gt] {n1 n2 nt : ℕ} (h1 : Fixed G1 n1) (h2 : Fixed G2 n2)
    (ht : Fixed Gt nt) (env : Env F G1 G2 Gt) (htag : Tagged env) (pk) (attrs : List Str) (m : Bytes) (t ct t')
    (h : Lsw.encrypt env pk attrs m t = .ok (ct, t')) :
    size ct = nt + (n2 + (vec attrs.length + (attrs.map fun a => str a + (n1 + (n1 + n1))).sum + payload m.length)) := by
  have hn := Lsw.C71_encrypt env pk attrs m t ct t' h
  simp only [Lsw.encrypt] at h
  split at h
  · simp at h
  simp only [RM.bind_ok, RM.pure_ok] at h
  obtain ⟨_, _, _, _, _, _, _, _, _, _, _, _, d, _, hd, hct, _⟩ := h
  refine (size_pair (ct.e1, ct.e2, ct.ej, ct.ct)).trans ?_
  have hdata : size ct.ct = payload m.length := by rw [hct]; exact size_payload htag hd
  rw [size_pair, size_pair, size_fixed h2, size_fixed ht, hdata,
    size_named hn (f := fun a => str a + (n1 + (n1 + n1))) fun x _ => ?_]
  refine (size_pair (x.name, x.e1, x.e2, x.e3)).trans ?_
  simp only [size_pair, size_fixed h1, size_str]

/-! ## YCT14 -/

/-- **C90, YCT14 ciphertexts.** The components of the attributes are not written (C57). -/
theorem Yct14.C90_encrypt (env : Env F G1 G2 Gt) (htag : Tagged env) (pk) (attrs : List Str) (m : Bytes) (t ct t')
    (h : Yct14.encrypt env pk attrs m t = .ok (ct, t')) : size ct = strs attrs + payload m.length := by
  have hn := Yct14.C71_encrypt env pk attrs m t ct t' h
  simp only [Yct14.encrypt] at h
  split at h
  · simp at h
  split at h
  · simp at h
  simp only [RM.bind_ok, RM.lift_ok_iff, RM.pure_ok] at h
  obtain ⟨_, _, _, l, _, ⟨hl, _⟩, d, _, hd, hct, _⟩ := h
  refine (size_pair (ct.attributes, ct.ct)).trans ?_
  have hdata : size ct.ct = payload m.length := by rw [hct]; exact size_payload htag hd
  rw [hdata, size_named hn (f := str) fun x _ => size_str x.name, strs]

/-- **C90, YCT14 keys.** Only the names are written (C57). -/
theorem Yct14.C90_keygen (msk : Yct14.MasterKey F Gt) (text : Str) (lang : PolicyLanguage) (p : Pol)
    (hp : Denotes text lang p) (t : Tape F G1 G2 Gt) (sk t') (h : Yct14.keygen msk text lang t = .ok (sk, t')) :
    size sk = str text + 1 + strs ((p.leaves.map fun l => l.1.takeWhile (· != '_')).filter fun n =>
        match msk.getPrivate n with | .ok _ => true | _ => false) := by
  obtain ⟨e, hn⟩ := Yct14.C71_keygen_partial msk text lang p hp t sk t' h
  refine (size_pair (sk.policy, sk.du)).trans ?_
  rw [size_pair, e, size_str, size_lang, size_named hn (f := str) fun x _ => size_str x.name, strs]
  rfl

/-! ## AW11 -/

/-- **C90, AW11 keys.** -/
theorem Aw11.C90_keygen [Borsh G1] {n1 : ℕ} (h1 : Fixed G1 n1) (cm : CaseMap) (env : Env F G1 G2 Gt) (gk)
    (msk : Aw11.MasterKey F) (name : Str) (attrs : List Str) (sk : Aw11.SecretKey G1)
    (h : Aw11.keygen cm env gk msk name attrs = .ok sk) :
    size sk = str name + (vec attrs.length + (attrs.map fun a => str (cm.upper a) + n1).sum) := by
  obtain ⟨e, hn⟩ := Aw11.C71_keygen cm env gk msk name attrs sk h
  refine (size_pair (sk.gid, sk.attr)).trans ?_
  rw [e, size_str, size_named hn (f := fun a => str a + n1) fun x _ => ?_]
  · simp [Function.comp_def]
  rw [size_pair, size_fixed h1, size_str]

/-- **C90, AW11 ciphertexts.** The leaves without public key are dropped (C71). -/
theorem Aw11.C90_encrypt [Borsh G2] [Borsh Gt] {n2 nt : ℕ} (h2 : Fixed G2 n2)
    (ht : Fixed Gt nt) (cm : CaseMap) (env : Env F G1 G2 Gt) (htag : Tagged env) (gk) (pks : List (Aw11.PublicKey G2 Gt))
    (text : Str) (lang : PolicyLanguage) (p : Pol) (hp : Denotes text lang p) (m : Bytes) (t ct t')
    (h : Aw11.encrypt cm env gk pks text lang m t = .ok (ct, t')) (names : List Str)
    (hnames : names = (p.leaves.map fun l => cm.upper (l.1 ++ '_' :: natStr l.2)).filter fun x =>
        (Aw11.findPkAttr (x.takeWhile (· != '_')) pks).isSome) :
    size ct = str text + 1 + (nt + (vec names.length + (names.map fun a => str a + (nt + (n2 + n2))).sum +
      payload m.length)) := by
  obtain ⟨e, hn⟩ := Aw11.C71_encrypt_partial cm env gk pks text lang p hp m t ct t' h
  rw [← hnames] at hn
  simp only [Aw11.encrypt, RM.bind_ok, RM.pure_ok] at h
  obtain ⟨_, _, _, _, _, _, _, _, _, _, _, _, _, _, _, _, _, _, _, _, _, _, _, _, _, _, _, _, _, _, d, _, hd, hct, _⟩ := h
  refine (size_pair (ct.policy, ct.c0, ct.c, ct.ct)).trans ?_
  have hdata : size ct.ct = payload m.length := by rw [hct]; exact size_payload htag hd
  rw [size_pair, size_pair, size_pair, hdata, size_fixed ht, e, size_str, size_lang,
    size_named hn (f := fun a => str a + (nt + (n2 + n2))) fun x _ => ?_]
  refine (size_pair (x.name, x.c1, x.c2, x.c3)).trans ?_
  simp only [size_pair, size_fixed h2, size_fixed ht, size_str]

/-! ## BDABE and MKE08 -/

/-- **C90, BDABE ciphertexts.** The terms are those of the disjunctive form (C19). -/
theorem Bdabe.C90_encrypt [Borsh G1] [Borsh G2] [Borsh Gt] {n1 n2 nt : ℕ} (h1 : Fixed G1 n1) (h2 : Fixed G2 n2)
    (ht : Fixed Gt nt) (env : Env F G1 G2 Gt) (htag : Tagged env) (pk) (keys : List (Bdabe.PublicAttributeKey G1 G2 Gt))
    (text : Str) (lang : PolicyLanguage) (m : Bytes) (t ct t')
    (h : Bdabe.encrypt env pk keys text lang m t = .ok (ct, t')) :
    ∃ terms, DnfPolicy.fromString text (keys.map Bdabe.PublicAttributeKey.view) lang = .ok terms ∧
      size ct = str text + 1 + (vec terms.length +
        (terms.map fun c => strs c.attrs + (nt + (n1 + (n2 + (n1 + n2))))).sum + payload m.length) := by
  obtain ⟨e, terms, hterms, hn⟩ := Bdabe.C71_encrypt env pk keys text lang m t ct t' h
  refine ⟨terms, hterms, ?_⟩
  simp only [Bdabe.encrypt, RM.bind_ok, RM.lift_ok_iff] at h
  obtain ⟨_, _, _, h⟩ := h
  split at h
  · simp only [RM.bind_ok, RM.pure_ok, RM.lift_ok_iff] at h
    obtain ⟨_, _, _, _, _, _, _, _, _, _, _, _, d, _, hd, hct, _⟩ := h
    refine (size_pair (ct.policy, ct.j, ct.ct)).trans ?_
    have hdata : size ct.ct = payload m.length := by rw [hct]; exact size_payload htag hd
    rw [size_pair, size_pair, hdata, e, size_str, size_lang,
      size_named hn (f := fun a => strs a + (nt + (n1 + (n2 + (n1 + n2))))) fun x _ => ?_]
    · simp [Function.comp_def]
    refine (size_pair (x.attr, x.e1, x.e2, x.e3, x.e4, x.e5)).trans ?_
    simp only [size_pair, size_fixed h1, size_fixed h2, size_fixed ht, size_strs]
  · simp at h

/-- **C90, MKE08 ciphertexts.** The terms are those of the disjunctive form (C19). -/
theorem Mke08.C90_encrypt [Borsh G1] [Borsh G2] [Borsh Gt] {n1 n2 nt : ℕ} (h1 : Fixed G1 n1) (h2 : Fixed G2 n2)
    (ht : Fixed Gt nt) (env : Env F G1 G2 Gt) (htag : Tagged env) (pk) (keys : List (Mke08.PublicAttributeKey G1 G2 Gt))
    (text : Str) (lang : PolicyLanguage) (m : Bytes) (t ct t')
    (h : Mke08.encrypt env pk keys text lang m t = .ok (ct, t')) :
    ∃ terms, DnfPolicy.fromString text (keys.map Mke08.PublicAttributeKey.view) lang = .ok terms ∧
      size ct = str text + 1 + (vec terms.length +
        (terms.map fun c => strs c.attrs + (nt + (nt + (n1 + (n2 + (n1 + n2)))))).sum + payload m.length) := by
  obtain ⟨e, terms, hterms, hn⟩ := Mke08.C71_encrypt env pk keys text lang m t ct t' h
  refine ⟨terms, hterms, ?_⟩
  simp only [Mke08.encrypt, RM.bind_ok, RM.lift_ok_iff] at h
  obtain ⟨_, _, _, h⟩ := h
  split at h
  · simp only [RM.bind_ok, RM.pure_ok, RM.lift_ok_iff] at h
    obtain ⟨_, _, _, _, _, _, _, _, _, _, _, _, _, _, _, d, _, hd, hct, _⟩ := h
    refine (size_pair (ct.policy, ct.e, ct.ct)).trans ?_
    have hdata : size ct.ct = payload m.length := by rw [hct]; exact size_payload htag hd
    rw [size_pair, size_pair, hdata, e, size_str, size_lang,
      size_named hn (f := fun a => strs a + (nt + (nt + (n1 + (n2 + (n1 + n2)))))) fun x _ => ?_]
    · simp [Function.comp_def]
    refine (size_pair (x.str, x.j1, x.j2, x.j3, x.j4, x.j5, x.j6)).trans ?_
    simp only [size_pair, size_fixed h1, size_fixed h2, size_fixed ht, size_strs]
  · simp at h

/-! ## Consequence and cases -/

/-- **C90.** Under one policy text, plaintexts of equal length give ciphertexts of equal size, whatever the public keys and
the random numbers are. -/
theorem Bsw.C90_hides [Borsh G1] [Borsh G2] [Borsh Gt] {n1 n2 nt : ℕ} (h1 : Fixed G1 n1) (h2 : Fixed G2 n2)
    (ht : Fixed Gt nt) (env : Env F G1 G2 Gt) (htag : Tagged env) (pk pk') (text : Str) (lang : PolicyLanguage)
    (m m' : Bytes) (hm : m.length = m'.length) (t ct u t' ct' u')
    (h : Bsw.encrypt env pk text lang m t = .ok (ct, u)) (h' : Bsw.encrypt env pk' text lang m' t' = .ok (ct', u')) :
    size ct = size ct' := by
  have hp : ∃ p : Pol, Denotes text lang p := by
    simp only [Bsw.encrypt, RM.bind_ok, RM.lift_ok_iff] at h
    obtain ⟨_, _, _, _, _, _, v, _, ⟨hv, _⟩, _⟩ := h
    obtain ⟨p, rfl, _⟩ := parse_ok hv
    exact ⟨p, hv⟩
  obtain ⟨p, hp⟩ := hp
  rw [Bsw.C90_encrypt h1 h2 ht env htag pk text lang p hp m t ct u h,
    Bsw.C90_encrypt h1 h2 ht env htag pk' text lang p hp m' t' ct' u' h', hm]

/-- The concrete scalars have 32 bytes. -/
theorem fixed_fr : Fixed Fr 32 := fun x => ⟨_, rfl, toLe_length 32 x.val⟩

theorem tagged_gcm : Tagged Bsw.gcmEnv := by
  intro k n m c h
  simp only [Bsw.gcmEnv, Option.some.injEq] at h
  subst h
  simp
  omega

/-- The hypotheses are met by a run, and the number of bytes written is the one the theorem gives: 16 for the text and its
language, 64 for `c` and `c_p`, 4 + 71 + 72 for the leaves `A_2` and `B_10`, 33 for a plaintext of one byte. -/
example : ∃ ct t', Bsw.encrypt Bsw.gcmEnv ⟨1, 1, 1, 1, 1⟩ (chars% "\"A\" and \"B\"") .human [7] toyTape = .ok (ct, t') ∧
    size ct = 260 ∧ Denotes (chars% "\"A\" and \"B\"") .human (.gate .and [.leaf ['A'] 2, .leaf ['B'] 10]) ∧
    str (chars% "\"A\" and \"B\"") + 1 + ((32 : ℕ) + ((32 : ℕ) + (vec 2 + ((str (chars% "A_2") + (32 + 32)) +
      (str (chars% "B_10") + (32 + 32))) + payload 1))) = 260 := by
  have h : (Bsw.encrypt Bsw.gcmEnv ⟨1, 1, 1, 1, 1⟩ (chars% "\"A\" and \"B\"") .human [7] toyTape).check (fun y =>
      (Borsh.ser y.1).map (·.length) == some 260) = true := by decide +kernel
  obtain ⟨⟨ct, t'⟩, h, e⟩ := Res.check_iff.mp h
  refine ⟨ct, t', h, ?_, show parse _ _ = _ from rfl, by decide +kernel⟩
  simp only [beq_iff_eq, Option.map_eq_some_iff] at e
  obtain ⟨b, hb, e⟩ := e
  simp [size, hb, e]

/-- AC17 ciphertexts and keys. -/
example : (Ac17.setup Bsw.gcmEnv toyTape).check (fun x =>
    (Ac17.cpEncrypt Bsw.gcmEnv x.1.1 (chars% "\"A\" and \"B\"") [7] .human x.2).check (fun y =>
      (Borsh.ser y.1).map (·.length) == some (11 + 5 + (4 + 3 * 32) + (4 + 2 * (4 + 1 + (4 + 3 * 32))) + 32 + (4 + 12 + 1 + 16))) &&
    (Ac17.cpKeygen Bsw.gcmEnv x.1.2 [['A'], ['B']] x.2).check (fun y =>
      (Borsh.ser y.1).map (·.length) == some (4 + 2 * 5 + (4 + 3 * 32) + (4 + 2 * (4 + 1 + (4 + 3 * 32))) + (4 + 3 * 32)))) = true := by
  decide +kernel

/-- A count that does not fit makes serialisation fail. -/
example (n : ℕ) (h : 2 ^ 32 ≤ n + 28) : payload n = ⊤ := by
  rw [payload, vec, if_neg (by omega), top_add]

end Rabe
