import Verif.Props.Payload

/-!
# C83: a decryption that succeeds returns the plaintext that was encrypted
-/

set_option linter.unusedSectionVars false

namespace Rabe

variable {F G1 G2 Gt : Type} [Field F] [DecidableEq F] [AddCommGroup G1] [Module F G1]
  [AddCommGroup G2] [Module F G2] [AddCommGroup Gt] [Module F Gt]

/-- The cipher text of `m` under the key derived from `x` is also accepted under another derived key, and opens there as
`p` (`/repo/src/utils/aes/mod.rs:10-44`). AES-GCM is not
key-committing, so this is not excluded. -/
def Env.Crossed (env : Env F G1 G2 Gt) (x : Gt) (n m p : Bytes) : Prop :=
  ∃ y c, env.aeadEnc (env.kdf x) n m = some c ∧ env.kdf y ≠ env.kdf x ∧ env.aeadDec (env.kdf y) n c = some p

theorem toyEnv_not_crossed (x : Fr) (n m p : Bytes) : ¬ toyEnv.Crossed x n m p := by
  rintro ⟨y, c, h, hne, hd⟩
  simp only [toyEnv, Option.some.injEq] at h
  subst h
  have hl : (toyKdf y).length = (toyKdf x).length := by simp [toyKdf]
  simp only [toyEnv, toyDec] at hne hd
  rw [if_neg] at hd
  · simp at hd
  rw [hl, List.take_left' rfl]
  exact fun e => hne e.symm

theorem nonce_length (t : Tape F G1 G2 Gt) : t.nonce.length = 12 := by simp [Tape.nonce]

/-- What any element opens in an honest payload. -/
theorem opens_payload {env : Env F G1 G2 Gt} {x y : Gt} {n m c d p : Bytes} (hn : n.length = 12)
    (he : env.aeadEnc (env.kdf x) n m = some c) (hd : d = n ++ c) (h : decryptSymmetric env y d = .ok p) :
    p = m ∨ env.Crossed x n m p := by
  subst hd
  unfold decryptSymmetric at h
  split at h
  · simp at h
  rw [List.take_left' hn, List.drop_left' hn] at h
  by_cases hk : env.kdf y = env.kdf x
  · rw [hk, env.aeadDec_enc _ _ _ _ he] at h
    simp only [Res.ok.injEq] at h
    exact .inl h.symm
  · right
    refine ⟨y, c, he, hk, ?_⟩
    split at h
    · rename_i q hq
      simp only [Res.ok.injEq] at h
      rw [hq, h]
    · simp at h

/-- **C83, BSW.** Whatever key object is used and however the other parts of the ciphertext were changed: if the
decryption of an honest payload succeeds, the result is the plaintext, unless the key it derives is another one that the
cipher accepts for this very payload. -/
theorem Bsw.C83_sound (env : Env F G1 G2 Gt) (pk : Bsw.PublicKey G1 G2 Gt) (text : Str) (lang : PolicyLanguage)
    (m : Bytes) (t t' : Tape F G1 G2 Gt) (ct : Bsw.Ciphertext G1 G2 Gt)
    (h : Bsw.encrypt env pk text lang m t = .ok (ct, t')) (sk : Bsw.SecretKey G1 G2) (ct' : Bsw.Ciphertext G1 G2 Gt)
    (hc : ct'.data = ct.data) (p : Bytes) (hd : Bsw.decrypt env sk ct' = .ok p) :
    p = m ∨ env.Crossed (t.gt 0) t.nonce m p := by
  obtain ⟨⟨c, he, hp⟩, -⟩ := Bsw.C73_encrypt env pk text lang m t t' ct h
  unfold Bsw.decrypt at hd
  obtain ⟨y, -, hy⟩ := Res.bind_eq_ok.1 hd
  exact opens_payload (nonce_length t) he (hc.trans hp) hy

/-- **C83, AW11.** Whatever key object is used and however the other parts of the ciphertext were changed: if the
decryption of an honest payload succeeds, the result is the plaintext, unless the key it derives is another one that the
cipher accepts for this very payload. -/
theorem Aw11.C83_sound (env : Env F G1 G2 Gt) (cm : CaseMap) (gk : Aw11.GlobalKey G1 G2) (pks : List
    (Aw11.PublicKey G2 Gt)) (text : Str) (lang : PolicyLanguage)
    (m : Bytes) (t t' : Tape F G1 G2 Gt) (ct : Aw11.Ciphertext G2 Gt)
    (h : Aw11.encrypt cm env gk pks text lang m t = .ok (ct, t')) (gk' : Aw11.GlobalKey G1 G2)
    (sk : Aw11.SecretKey G1) (ct' : Aw11.Ciphertext G2 Gt)
    (hc : ct'.ct = ct.ct) (p : Bytes) (hd : Aw11.decrypt env gk' sk ct' = .ok p) :
    p = m ∨ env.Crossed (t.gt 0) t.nonce m p := by
  obtain ⟨⟨c, he, hp⟩, -⟩ := Aw11.C73_encrypt cm env gk pks text lang m t t' ct h
  unfold Aw11.decrypt at hd
  obtain ⟨pol, -, hd⟩ := Res.bind_eq_ok.1 hd
  split at hd
  · simp at hd
  obtain ⟨pr, -, hd⟩ := Res.bind_eq_ok.1 hd
  obtain ⟨co, -, hd⟩ := Res.bind_eq_ok.1 hd
  obtain ⟨cs, -, hd⟩ := Res.bind_eq_ok.1 hd
  split at hd
  swap
  · simp at hd
  obtain ⟨e, -, hy⟩ := Res.bind_eq_ok.1 hd
  exact opens_payload (nonce_length t) he (hc.trans hp) hy

/-- **C83, LSW.** Whatever key object is used and however the other parts of the ciphertext were changed: if the
decryption of an honest payload succeeds, the result is the plaintext, unless the key it derives is another one that the
cipher accepts for this very payload. -/
theorem Lsw.C83_sound (env : Env F G1 G2 Gt) (pk : Lsw.PublicKey G1 G2 Gt) (attrs : List Str)
    (m : Bytes) (t t' : Tape F G1 G2 Gt) (ct : Lsw.Ciphertext G1 G2 Gt)
    (h : Lsw.encrypt env pk attrs m t = .ok (ct, t')) (sk : Lsw.SecretKey G1 G2) (ct' : Lsw.Ciphertext G1 G2 Gt)
    (hc : ct'.ct = ct.ct) (p : Bytes) (hd : Lsw.decrypt env sk ct' = .ok p) :
    p = m ∨ env.Crossed (t.gt 0) t.nonce m p := by
  obtain ⟨⟨c, he, hp⟩, -⟩ := Lsw.C73_encrypt env pk attrs m t t' ct h
  unfold Lsw.decrypt at hd
  obtain ⟨pol, -, hd⟩ := Res.bind_eq_ok.1 hd
  obtain ⟨pr, -, hd⟩ := Res.bind_eq_ok.1 hd
  split at hd
  swap
  · simp at hd
  obtain ⟨co, -, hd⟩ := Res.bind_eq_ok.1 hd
  obtain ⟨cs, -, hd⟩ := Res.bind_eq_ok.1 hd
  obtain ⟨e, -, hy⟩ := Res.bind_eq_ok.1 hd
  exact opens_payload (nonce_length t) he (hc.trans hp) hy

/-- **C83, YCT14.** Whatever key object is used and however the other parts of the ciphertext were changed: if the
decryption of an honest payload succeeds, the result is the plaintext, unless the key it derives is another one that the
cipher accepts for this very payload. -/
theorem Yct14.C83_sound (env : Env F G1 G2 Gt) (pk : Yct14.PublicKey F Gt) (attrs : List Str)
    (m : Bytes) (t t' : Tape F G1 G2 Gt) (ct : Yct14.Ciphertext F Gt)
    (h : Yct14.encrypt env pk attrs m t = .ok (ct, t')) (sk : Yct14.SecretKey F Gt) (ct' : Yct14.Ciphertext F Gt)
    (hc : ct'.ct = ct.ct) (p : Bytes) (hd : Yct14.decrypt env sk ct' = .ok p) :
    p = m ∨ env.Crossed (t.fr 0 • pk.g) t.nonce m p := by
  obtain ⟨⟨c, he, hp⟩, -⟩ := Yct14.C73_encrypt env pk attrs m t t' ct h
  unfold Yct14.decrypt at hd
  obtain ⟨pol, -, hd⟩ := Res.bind_eq_ok.1 hd
  obtain ⟨pr, -, hd⟩ := Res.bind_eq_ok.1 hd
  split at hd
  swap
  · simp at hd
  obtain ⟨co, -, hd⟩ := Res.bind_eq_ok.1 hd
  obtain ⟨cs, -, hd⟩ := Res.bind_eq_ok.1 hd
  obtain ⟨e, -, hy⟩ := Res.bind_eq_ok.1 hd
  exact opens_payload (nonce_length t) he (hc.trans hp) hy

/-- **C83, AC17, ciphertext policy.** Whatever key object is used and however the other parts of the ciphertext were
changed: if the
decryption of an honest payload succeeds, the result is the plaintext, unless the key it derives is another one that the
cipher accepts for this very payload. -/
theorem Ac17.C83_cp_sound (env : Env F G1 G2 Gt) (pk : Ac17.PublicKey G1 G2 Gt) (text : Str) (lang : PolicyLanguage)
    (m : Bytes) (t t' : Tape F G1 G2 Gt) (ct : Ac17.CpCiphertext G1 G2 Gt)
    (h : Ac17.cpEncrypt env pk text m lang t = .ok (ct, t')) (sk : Ac17.CpSecretKey G1 G2)
    (ct' : Ac17.CpCiphertext G1 G2 Gt)
    (hc : ct'.ct.ct = ct.ct.ct) (p : Bytes) (hd : Ac17.cpDecrypt env sk ct' = .ok p) :
    p = m ∨ env.Crossed (t.gt 0) t.nonce m p := by
  obtain ⟨⟨c, he, hp⟩, -⟩ := Ac17.C73_cp_encrypt env pk text lang m t t' ct h
  unfold Ac17.cpDecrypt at hd
  obtain ⟨y, -, hy⟩ := Res.bind_eq_ok.1 hd
  exact opens_payload (nonce_length t) he (hc.trans hp) hy

/-- **C83, AC17, key policy.** Whatever key object is used and however the other parts of the ciphertext were changed:
if the
decryption of an honest payload succeeds, the result is the plaintext, unless the key it derives is another one that the
cipher accepts for this very payload. -/
theorem Ac17.C83_kp_sound (env : Env F G1 G2 Gt) (pk : Ac17.PublicKey G1 G2 Gt) (attrs : List Str)
    (m : Bytes) (t t' : Tape F G1 G2 Gt) (ct : Ac17.KpCiphertext G1 G2 Gt)
    (h : Ac17.kpEncrypt env pk attrs m t = .ok (ct, t')) (sk : Ac17.KpSecretKey G1 G2)
    (ct' : Ac17.KpCiphertext G1 G2 Gt)
    (hc : ct'.ct.ct = ct.ct.ct) (p : Bytes) (hd : Ac17.kpDecrypt env sk ct' = .ok p) :
    p = m ∨ env.Crossed (t.gt 0) t.nonce m p := by
  obtain ⟨⟨c, he, hp⟩, -⟩ := Ac17.C73_kp_encrypt env pk attrs m t t' ct h
  unfold Ac17.kpDecrypt at hd
  obtain ⟨y, -, hy⟩ := Res.bind_eq_ok.1 hd
  exact opens_payload (nonce_length t) he (hc.trans hp) hy

/-- **C83, BDABE.** Whatever key object is used and however the other parts of the ciphertext were changed: if the
decryption of an honest payload succeeds, the result is the plaintext, unless the key it derives is another one that the
cipher accepts for this very payload. -/
theorem Bdabe.C83_sound (env : Env F G1 G2 Gt) (pk : Bdabe.PublicKey G1 G2 Gt) (keys : List
    (Bdabe.PublicAttributeKey G1 G2 Gt)) (text : Str) (lang : PolicyLanguage)
    (m : Bytes) (t t' : Tape F G1 G2 Gt) (ct : Bdabe.Ciphertext G1 G2 Gt)
    (h : Bdabe.encrypt env pk keys text lang m t = .ok (ct, t')) (one : G1 × G2) (sk : Bdabe.UserKey G1 G2)
    (ct' : Bdabe.Ciphertext G1 G2 Gt)
    (hc : ct'.ct = ct.ct) (p : Bytes) (hd : Bdabe.decrypt env one sk ct' = .ok p) :
    p = m ∨ env.Crossed (env.pair (t.g1 0) (t.g2 0)) t.nonce m p := by
  obtain ⟨⟨c, he, hp⟩, -⟩ := Bdabe.C73_encrypt env pk keys text lang m t t' ct h
  unfold Bdabe.decrypt at hd
  obtain ⟨pol, -, hd⟩ := Res.bind_eq_ok.1 hd
  split at hd
  · simp at hd
  have hy := hd
  exact opens_payload (nonce_length t) he (hc.trans hp) hy

/-- **C83, MKE08.** Whatever key object is used and however the other parts of the ciphertext were changed: if the
decryption of an honest payload succeeds, the result is the plaintext, unless the key it derives is another one that the
cipher accepts for this very payload. -/
theorem Mke08.C83_sound (env : Env F G1 G2 Gt) (pk : Mke08.PublicKey G1 G2 Gt) (keys : List
    (Mke08.PublicAttributeKey G1 G2 Gt)) (text : Str) (lang : PolicyLanguage)
    (m : Bytes) (t t' : Tape F G1 G2 Gt) (ct : Mke08.Ciphertext G1 G2 Gt)
    (h : Mke08.encrypt env pk keys text lang m t = .ok (ct, t')) (one : G1 × G2) (sk : Mke08.UserKey G1 G2)
    (ct' : Mke08.Ciphertext G1 G2 Gt)
    (hc : ct'.ct = ct.ct) (p : Bytes) (hd : Mke08.decrypt env one sk ct' = .ok p) :
    p = m ∨ env.Crossed (env.pair (t.g1 0) (t.g2 0) + t.fr 0 • env.pair (t.g1 0) (t.g2 0)) t.nonce m p := by
  obtain ⟨⟨c, he, hp⟩, -⟩ := Mke08.C73_encrypt env pk keys text lang m t t' ct h
  unfold Mke08.decrypt at hd
  obtain ⟨pol, -, hd⟩ := Res.bind_eq_ok.1 hd
  split at hd
  · simp at hd
  have hy := hd
  exact opens_payload (nonce_length t) he (hc.trans hp) hy

/-- **C83, GHW11.** Whatever the transformation service returns and whatever retrieve key is used: if the final
decryption of an honest payload succeeds, the result is the plaintext, unless the key it derives is another one that the
cipher accepts for this very payload. -/
theorem Ghw11.C83_sound (env : Env F G1 G2 Gt) (pk : Ghw11.PublicKey G1 G2 Gt) (text : Str)
    (lang : PolicyLanguage) (m : Bytes) (t t' : Tape F G1 G2 Gt) (ct : Ghw11.Ciphertext G1 Gt)
    (h : Ghw11.encrypt env pk text lang m t = .ok (ct, t')) (pct : Ghw11.TransformCiphertext Gt)
    (rk : Ghw11.RetrieveKey F) (p : Bytes) (hd : Ghw11.decryptOut env pct rk ct.data = .ok p) :
    p = m ∨ env.Crossed (t.gt 0) t.nonce m p := by
  obtain ⟨⟨c, he, hp⟩, -⟩ := Ghw11.C73_encrypt env pk text lang m t t' ct h
  exact opens_payload (nonce_length t) he hp hd

/-! ## Cases

The ciphertexts are changed outside the payload. In the first part of each case decryption still succeeds, in the second it
recovers another element and the cipher refuses it. -/

example : (Bsw.setup toyEnv toyTape).check (fun ((pk, msk), t) =>
    (Bsw.keygen toyEnv pk msk [['A'], ['B']] t).check fun (sk, t) => match sk with
      | none => false
      | some sk => (Bsw.encrypt toyEnv pk (chars% "\"A\" and \"B\"") .human [1, 2] t).check fun (ct, _) =>
        (Bsw.decrypt toyEnv { sk with d := sk.d + 5 } { ct with cP := ct.cP + 5 * ct.c }).check (fun p => decide (p = [1, 2])) &&
        !(Bsw.decrypt toyEnv sk { ct with cP := ct.cP + 5 }).check (fun _ => true)) = true := by
  decide +kernel

example : (Ghw11.setup toyEnv toyTape).check (fun ((pk, _), t) =>
    (Ghw11.encrypt toyEnv pk (chars% "\"A\" and \"B\"") .human [1, 2] t).check fun (ct, _) =>
      (Ghw11.decryptOut toyEnv ⟨16, 5⟩ ⟨3⟩ ct.data).check (fun p => decide (p = [1, 2])) &&
      !(Ghw11.decryptOut toyEnv ⟨16, 5⟩ ⟨4⟩ ct.data).check (fun _ => true)) = true := by
  decide +kernel

example : (Aw11.setup toyTape).check (fun (gk, t) =>
    (Aw11.authgen asciiCase toyEnv gk [['A'], ['B']] t).check fun (r, t) => match r with
      | none => false
      | some (pk, msk) => (Aw11.keygen asciiCase toyEnv gk msk ['u'] [['A'], ['B']]).check fun sk =>
        (Aw11.encrypt asciiCase toyEnv gk [pk] (chars% "\"A\" and \"B\"") .human [1, 2] t).check fun (ct, _) =>
          (Aw11.decrypt toyEnv gk sk { ct with policy := (chars% "\"A\" and \"B\" ", .human) }).check
            (fun p => decide (p = [1, 2])) &&
          !(Aw11.decrypt toyEnv gk sk { ct with c0 := ct.c0 + 5 }).check (fun _ => true)) = true := by
  decide +kernel

example : (Lsw.setup toyEnv toyTape).check (fun ((pk, msk), t) =>
    (Lsw.keygen toyEnv pk msk (chars% "\"A\" and \"B\"") .human t).check fun (sk, t) =>
      (Lsw.encrypt toyEnv pk [['A'], ['B']] [1, 2] t).check fun (ct, _) =>
        (Lsw.decrypt toyEnv sk { ct with ej := ct.ej.reverse }).check (fun p => decide (p = [1, 2])) &&
        !(Lsw.decrypt toyEnv sk { ct with e1 := ct.e1 + 5 }).check (fun _ => true)) = true := by
  decide +kernel

example : (Yct14.setup [['A'], ['B']] toyTape).check (fun ((pk, msk), t) =>
    (Yct14.keygen msk (chars% "\"A\" and \"B\"") .human t).check fun (sk, t) =>
      (Yct14.encrypt toyEnv pk [['A'], ['B']] [1, 2] t).check fun (ct, _) =>
        (Yct14.decrypt toyEnv sk { ct with attributes := ct.attributes.reverse }).check (fun p => decide (p = [1, 2])) &&
        !(Yct14.decrypt toyEnv { sk with policy := (chars% "\"A\" or \"B\"", .human) } ct).check (fun _ => true)) =
    true := by
  decide +kernel

example : (Ac17.setup toyEnv toyTape).check (fun ((pk, msk), t) =>
    ((Ac17.cpKeygen toyEnv msk [['A'], ['B']] t).check fun (sk, t) =>
      (Ac17.cpEncrypt toyEnv pk (chars% "\"A\" and \"B\"") [1, 2] .human t).check fun (ct, _) =>
        (Ac17.cpDecrypt toyEnv sk { ct with policy := (chars% "\"A\" and \"B\" ", .human) }).check
          (fun p => decide (p = [1, 2])) &&
        !(Ac17.cpDecrypt toyEnv sk { ct with ct := { ct.ct with cP := ct.ct.cP + 5 } }).check (fun _ => true)) &&
    (Ac17.kpKeygen toyEnv msk (chars% "\"A\" and \"B\"") .human t).check fun (sk, t) =>
      (Ac17.kpEncrypt toyEnv pk [['A'], ['B']] [1, 2] t).check fun (ct, _) =>
        (Ac17.kpDecrypt toyEnv sk { ct with ct := { ct.ct with c := ct.ct.c.reverse } }).check
          (fun p => decide (p = [1, 2])) &&
        !(Ac17.kpDecrypt toyEnv sk { ct with ct := { ct.ct with cP := ct.ct.cP + 5 } }).check (fun _ => true)) = true := by
  decide +kernel

example : (Bdabe.setup toyEnv toyTape).check (fun ((pk, msk), t) => (Bdabe.authgen pk msk ['A'] t).check fun (skA, t) =>
    (Bdabe.requestAttributePk toyEnv pk skA (chars% "A::a")).check (fun k1 =>
      (Bdabe.keygen pk skA ['u'] t).check fun (u, t) =>
      (Bdabe.requestAttributeSk toyEnv u.pk skA (chars% "A::a")).check fun a =>
        (Bdabe.encrypt toyEnv pk [k1] (chars% "\"A::a\"") .human [1, 2] t).check fun (ct, _) =>
          (Bdabe.decrypt toyEnv (1, 1) { u with skA := [a] } { ct with policy := (chars% "\"A::a\" ", .human) }).check
            (fun p => decide (p = [1, 2])) &&
          !(Bdabe.decrypt toyEnv (1, 1) { u with skA := [a] } { ct with j := ct.j.map fun x => { x with e1 := x.e1 + 5 } }).check
            (fun _ => true))) = true := by
  decide +kernel

example : (Mke08.setup toyEnv toyTape).check (fun ((pk, msk), t) => (Mke08.authgen ['A'] t).check fun (skA, t) =>
    (Mke08.requestAuthorityPk toyEnv pk (chars% "A::a") skA).check (fun k1 =>
      (Mke08.keygen pk msk ['u'] t).check fun (u, t) =>
      (Mke08.requestAuthoritySk toyEnv u.pk (chars% "A::a") skA).check fun a =>
        (Mke08.encrypt toyEnv pk [k1] (chars% "\"A::a\"") .human [1, 2] t).check fun (ct, _) =>
          (Mke08.decrypt toyEnv (1, 1) { u with skA := [a] } { ct with policy := (chars% "\"A::a\" ", .human) }).check
            (fun p => decide (p = [1, 2])) &&
          !(Mke08.decrypt toyEnv (1, 1) { u with skA := [a] } { ct with e := ct.e.map fun x => { x with j1 := x.j1 + 5 } }).check
            (fun _ => true))) = true := by
  decide +kernel

/-- An environment whose cipher never refuses: the second alternative of the theorems cannot be dropped. -/
def looseEnv : Env Fr Fr Fr Fr :=
  { toyEnv with
    aeadEnc := fun k _ m => some (m.map (· + k.headD 0))
    aeadDec := fun k _ c => some (c.map (· - k.headD 0))
    aeadDec_enc := by
      intro k n m c h
      simp only [Option.some.injEq] at h
      subst h
      simp [Function.comp_def, UInt8.add_sub_cancel] }

/-- With a cipher that accepts every key the transformation service chooses what the user reads. -/
theorem Ghw11.C83_alternative_needed : (Ghw11.setup looseEnv toyTape).check (fun ((pk, _), t) =>
    (Ghw11.encrypt looseEnv pk (chars% "\"A\" and \"B\"") .human [1, 2] t).check fun (ct, _) =>
      (Ghw11.decryptOut looseEnv ⟨9, 0⟩ ⟨3⟩ ct.data).check (fun p => decide (p = [249, 250]))) = true := by
  decide +kernel

end Rabe
