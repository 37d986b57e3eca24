import Verif.Proof.Collusion
import Verif.Props.Bsw
import Verif.Props.Yct14
import Verif.Props.Abort
import Verif.Props.Mke08
import Verif.Props.Bdabe

/-!
# C68: combining the keys of several users
-/

set_option linter.unusedSectionVars false
set_option linter.unnecessarySeqFocus false

namespace Rabe

variable {F G1 G2 Gt : Type} [Field F] [DecidableEq F] [AddCommGroup G1] [Module F G1]
  [AddCommGroup G2] [Module F G2] [AddCommGroup Gt] [Module F Gt]

namespace Yct14

/-- **C68 is violated for YCT14.** Two keys issued for the policy `A and B` (with different random numbers) determine the
key that is issued for the policy `B` alone, by field arithmetic on the components. -/
theorem C68_violated_yct14 (uni : List Str) (t₁ t₁' : Tape F G1 G2 Gt) (pk : PublicKey F Gt) (msk : MasterKey F Gt)
    (hsetup : setup uni t₁ = .ok ((pk, msk), t₁')) (A B : Str) (hA : '_' ∉ A) (hB : '_' ∉ B) (hAu : A ∈ uni)
    (hBu : B ∈ uni) (text : Str) (lang : PolicyLanguage) (i j : ℕ)
    (hp : Denotes text lang (.gate .and [.leaf A i, .leaf B j]))
    (t₂ t₂' t₃ t₃' : Tape F G1 G2 Gt) (sk sk' : SecretKey F Gt)
    (hkey : keygen msk text lang t₂ = .ok (sk, t₂')) (hkey' : keygen msk text lang t₃ = .ok (sk', t₃')) :
    ∃ a b a' b' : F, sk.du = [⟨A, some (.priv a)⟩, ⟨B, some (.priv b)⟩] ∧
      sk'.du = [⟨A, some (.priv a')⟩, ⟨B, some (.priv b')⟩] ∧ (a = a' → t₂.fr 0 = t₃.fr 0) ∧
      (a ≠ a' → ∀ textB langB k, Denotes textB langB (.leaf B k) → ∀ t : Tape F G1 G2 Gt,
        keygen msk textB langB t = .ok (⟨(textB, langB), [⟨B, some (.priv ((a' * b - a * b') / (a - a')))⟩]⟩, t)) := by
  obtain ⟨g, L, hs⟩ := setup_ok hsetup
  obtain ⟨x, hx⟩ := Option.isSome_iff_exists.1 ((expOf_isSome L A).2 (by rw [hs.names]; exact hAu))
  obtain ⟨y, hy⟩ := Option.isSome_iff_exists.1 ((expOf_isSome L B).2 (by rw [hs.names]; exact hBu))
  have key : ∀ {t t' : Tape F G1 G2 Gt} {sk : SecretKey F Gt}, keygen msk text lang t = .ok (sk, t') →
      x ≠ 0 ∧ y ≠ 0 ∧ sk.du = [⟨A, some (.priv ((msk.s + t.fr 0) * x⁻¹))⟩,
        ⟨B, some (.priv ((msk.s + t.fr 0 * 2) * y⁻¹))⟩] := by
    intro t t' sk h
    have hp' : parse text lang = .ok (Pol.gate .and [.leaf A i, .leaf B j]).toValue := hp
    have hsh : shares (.gate .and [.leaf A i, .leaf B j]) msk.s t.fr =
        [(nodeIndex A i, msk.s + t.fr 0), (nodeIndex B j, msk.s + t.fr 0 * 2)] := by
      simp [shares, shareVals, shareValsL, gateShare, thr, polynomial, polynomialFrom, leafIdx, List.range_succ,
        one_add_one_eq_two]
    simp only [keygen, RM.bind_ok, RM.lift_ok_iff, hp', Res.ok.injEq, RM.liftFr] at h
    obtain ⟨pv, u1, ⟨rfl, rfl⟩, sh, u2, hu, h⟩ := h
    rw [genSharesPolicy_eq] at hu
    simp only [Res.ok.injEq, Prod.mk.injEq] at hu
    obtain ⟨rfl, rfl⟩ := hu
    simp only [RM.bind_ok, RM.pure_ok, RM.lift_ok_iff] at h
    obtain ⟨du, u3, ⟨hdu, _⟩, rfl, _⟩ := h
    rw [hsh] at hdu
    simp only [Res.mapR, Res.rbind_eq, keygenShare_eq hs, removeIndex_nodeIndex _ hA, removeIndex_nodeIndex _ hB, hx, hy] at hdu
    by_cases hx0 : x = 0
    · simp [hx0] at hdu
    · by_cases hy0 : y = 0
      · simp [hx0, hy0] at hdu
      · simp [hx0, hy0] at hdu
        exact ⟨hx0, hy0, by simp [← hdu]⟩
  obtain ⟨hx0, hy0, e1⟩ := key hkey
  obtain ⟨-, -, e2⟩ := key hkey'
  refine ⟨_, _, _, _, e1, e2, ?_, ?_⟩
  · intro h
    have := mul_right_cancel₀ (inv_ne_zero hx0) h
    exact add_left_cancel this
  · intro hne textB langB k hB' t
    have hω : t₂.fr 0 - t₃.fr 0 ≠ 0 := by
      intro h
      exact hne (by rw [sub_eq_zero.1 h])
    have hp' : parse textB langB = .ok (Pol.leaf B k).toValue := hB'
    have hsh : shares (.leaf B k) msk.s t.fr = [(nodeIndex B k, msk.s)] := by simp [shares, shareVals, leafIdx]
    have hval : ((msk.s + t₃.fr 0) * x⁻¹ * ((msk.s + t₂.fr 0 * 2) * y⁻¹) -
        (msk.s + t₂.fr 0) * x⁻¹ * ((msk.s + t₃.fr 0 * 2) * y⁻¹)) /
        ((msk.s + t₂.fr 0) * x⁻¹ - (msk.s + t₃.fr 0) * x⁻¹) = msk.s * y⁻¹ := by
      have : (msk.s + t₂.fr 0) * x⁻¹ - (msk.s + t₃.fr 0) * x⁻¹ = (t₂.fr 0 - t₃.fr 0) * x⁻¹ := by ring
      rw [this, div_eq_iff (mul_ne_zero hω (inv_ne_zero hx0))]
      ring
    rw [hval]
    simp only [keygen, RM.bind_ok, RM.lift_ok_iff, hp', Res.ok.injEq, RM.liftFr]
    refine ⟨_, t, ⟨rfl, rfl⟩, some [(nodeIndex B k, msk.s)], t, ?_, ?_⟩
    · rw [genSharesPolicy_eq, hsh]
      simp [draws]
    · simp only [RM.bind_ok, RM.lift_ok_iff, RM.pure_ok]
      refine ⟨[some ⟨B, some (.priv (msk.s * y⁻¹))⟩], t, ⟨?_, rfl⟩, rfl, rfl⟩
      simp [Res.mapR, Res.rbind_eq, keygenShare_eq hs, removeIndex_nodeIndex _ hB, hy, hy0]

/-- The key for `B` made from two keys for `A and B`. -/
def forge (textB : Str) (langB : PolicyLanguage) (B : Str) (sk sk' : SecretKey F Gt) : SecretKey F Gt :=
  match sk.du, sk'.du with
  | [⟨_, some (.priv a)⟩, ⟨_, some (.priv b)⟩], [⟨_, some (.priv a')⟩, ⟨_, some (.priv b')⟩] =>
      ⟨(textB, langB), [⟨B, some (.priv ((a' * b - a * b') / (a - a')))⟩]⟩
  | _, _ => ⟨(textB, langB), []⟩

/-- Consequence: two users whose keys are for `A and B` read a message for `B`, which neither of them can read. -/
theorem C68_violated_yct14_decrypts [BigChar F] (env : Env F G1 G2 Gt) (uni : List Str) (t₁ t₁' : Tape F G1 G2 Gt)
    (pk : PublicKey F Gt) (msk : MasterKey F Gt)
    (hsetup : setup uni t₁ = .ok ((pk, msk), t₁')) (A B : Str) (hA : '_' ∉ A) (hB : '_' ∉ B) (hAB : A ≠ B) (hAu : A ∈ uni)
    (hBu : B ∈ uni) (text : Str) (lang : PolicyLanguage) (i j : ℕ)
    (hp : Denotes text lang (.gate .and [.leaf A i, .leaf B j]))
    (t₂ t₂' t₃ t₃' : Tape F G1 G2 Gt) (sk sk' : SecretKey F Gt)
    (hkey : keygen msk text lang t₂ = .ok (sk, t₂')) (hkey' : keygen msk text lang t₃ = .ok (sk', t₃'))
    (hrand : t₂.fr 0 ≠ t₃.fr 0) (textB : Str) (langB : PolicyLanguage) (k : ℕ) (hpB : Denotes textB langB (.leaf B k))
    (hlen : textB.length < 2 ^ 64) (plaintext : Bytes) (t₄ t₄' : Tape F G1 G2 Gt) (ct : Ciphertext F Gt)
    (henc : encrypt env pk [B] plaintext t₄ = .ok (ct, t₄')) :
    decrypt env sk ct = .err ∧ decrypt env sk' ct = .err ∧
      decrypt env (forge textB langB B sk sk') ct = .ok plaintext := by
  obtain ⟨g, L, hs⟩ := setup_ok hsetup
  obtain ⟨-, hpol⟩ := keygen_ok hs hp hkey
  obtain ⟨-, hpol'⟩ := keygen_ok hs hp hkey'
  obtain ⟨c, hc, -⟩ := encrypt_ok hs henc
  have hsat : (Pol.gate .and [.leaf A i, .leaf B j]).sat [B] = false := by simp [hAB]
  refine ⟨C37_yct14_refuses env sk ct _ (by rw [hpol]; exact hp) (by simp [Pol.Wide]) (by rw [hc.names]; exact hsat),
    C37_yct14_refuses env sk' ct _ (by rw [hpol']; exact hp) (by simp [Pol.Wide]) (by rw [hc.names]; exact hsat), ?_⟩
  obtain ⟨a, b, a', b', e1, e2, hne, h⟩ := C68_violated_yct14 uni t₁ t₁' pk msk hsetup A B hA hB hAu hBu text lang i j hp
    t₂ t₂' t₃ t₃' sk sk' hkey hkey'
  have hB' := h (fun h => hrand (hne h)) textB langB k hpB t₂
  have hf : forge textB langB B sk sk' = ⟨(textB, langB), [⟨B, some (.priv ((a' * b - a * b') / (a - a')))⟩]⟩ := by
    rw [forge, e1, e2]
  rw [hf]
  refine C36_yct14_correct_partial env uni t₁ t₁' pk msk hsetup textB langB (.leaf B k)
    ⟨hpB, hlen, by simp [Pol.Wide], by simp⟩ t₂ t₂ _ hB' [B] plaintext t₄ t₄' ct henc (by simp) ?_
  intro n hn _
  simp only [Pol.names, Pol.leaves_leaf, List.map_cons, List.map_nil, List.mem_singleton] at hn
  subst hn
  refine ⟨hB, ?_⟩
  have : n.takeWhile (· != '_') = n := by rw [← removeIndex_nodeIndex_eq n 0, removeIndex_nodeIndex 0 hB]
  simp [Pol.names, this]

/-- Two keys for `"A" and "B"`, made with different random numbers, and a message for `B`. -/
example : (do
    let x ← setup [['A'], ['B']] toyTape
    let u ← keygen x.1.2 (chars% "\"A\" and \"B\"") .human toyTape
    let v ← keygen x.1.2 (chars% "\"A\" and \"B\"") .human { toyTape with fr := fun _ => 5 }
    let z ← encrypt toyEnv x.1.1 [['B']] [1, 2, 3] { toyTape with fr := fun _ => 3 }
    Res.ok (decrypt toyEnv u.1 z.1, decrypt toyEnv v.1 z.1,
      decrypt toyEnv (forge (chars% "\"B\"") .human ['B'] u.1 v.1) z.1)) =
    .ok (.err, .err, .ok [1, 2, 3]) := by decide +kernel

end Yct14

namespace Bsw

/-- The first component of an issued key belongs to the first random number of `keygen`, the others to the same number. -/
theorem keygen_exp {env : Env F G1 G2 Gt} {pk : PublicKey G1 G2 Gt} {msk : MasterKey F G2} {attrs t sk t'}
    (h : keygen env pk msk attrs t = .ok (some sk, t')) : IsKey env pk msk attrs sk (t.fr 0) := by
  unfold keygen at h
  split at h
  · simp at h
  · simp only [RM.bind_ok, RM.genFr, RM.lift_ok_iff, RM.pure_ok, inv, Res.ok.injEq, Prod.mk.injEq,
      Option.some.injEq] at h
    obtain ⟨r, t1, ⟨rfl, rfl⟩, bi, t2, ⟨hb, rfl⟩, dJ, t3, hd, rfl, _⟩ := h
    split at hb
    · simp at hb
    · simp only [Res.ok.injEq] at hb
      refine ⟨by rw [← hb], ?_⟩
      refine (RM.mapL_ok hd).imp ?_
      rintro a x ⟨s, s', hx⟩
      simp only [keygenAttr, RM.bind_ok, RM.genFr, RM.pure_ok, Res.ok.injEq, Prod.mk.injEq] at hx
      obtain ⟨rj, s1, ⟨rfl, rfl⟩, rfl, _⟩ := hx
      exact ⟨rfl, _, rfl, rfl⟩

/-- The secret, its coefficients and the session element of an encryption are the random values drawn. -/
theorem encrypt_rand {env : Env F G1 G2 Gt} {pk : PublicKey G1 G2 Gt} {policy lang pt t ct t'} {p : Pol}
    (hp : parse policy lang = .ok p.toValue) (h : encrypt env pk policy lang pt t = .ok (ct, t')) :
    IsCt env pk p ct (t.gt 0) (t.fr 0) (fun n => t.fr (n + 1)) ∧ decryptSymmetric env (t.gt 0) ct.data = .ok pt := by
  simp only [encrypt, RM.bind_ok, RM.genFr, RM.genGt, RM.lift_ok_iff, RM.pure_ok, hp, Res.ok.injEq,
    Prod.mk.injEq, RM.liftFr] at h
  obtain ⟨s, t1, ⟨rfl, rfl⟩, msg, t2, ⟨rfl, rfl⟩, pv, t3, ⟨rfl, rfl⟩, sh, t4, hsh, shs, t5, ⟨hu, rfl⟩, data, t6,
    hd, rfl, _⟩ := h
  rw [genSharesPolicy_eq] at hsh
  simp only [Res.ok.injEq, Prod.mk.injEq] at hsh
  obtain ⟨rfl, rfl⟩ := hsh
  simp only [Res.unwrapOption_some, Res.ok.injEq] at hu
  subst hu
  have : dropS 1 t.fr = fun n => t.fr (n + 1) := by funext n; simp [dropS, Nat.add_comm]
  exact ⟨⟨hp, rfl, rfl, by rw [← this]⟩, encryptSymmetric_ok hd⟩

/-- **C68, BSW, partial.** A coalition of users with issued keys; a key put together from the first component of the key
of `u` and attribute components of any members. If the names of these components satisfy the policy, decryption computes
the session element shifted by a sum over the members: their contribution `S i` to the shared secret times the difference
between their exponent and that of `u`. The contributions add up to the secret; and the contribution of a member who
cannot decrypt alone does not change under a translation of the random numbers of the encryption that changes the secret
by any given `d`. (Full claim: no public computation with the keys; false already for one key, see `C29_violated`.) -/
theorem C68_bsw_mixed_partial [BigChar F] (env : Env F G1 G2 Gt)
    (t₁ t₁' : Tape F G1 G2 Gt) (pk : PublicKey G1 G2 Gt) (msk : MasterKey F G2)
    (hsetup : setup env t₁ = .ok ((pk, msk), t₁'))
    {ι : Type} [Fintype ι] [DecidableEq ι] (attrs : ι → List Str) (t t' : ι → Tape F G1 G2 Gt) (sk : ι → SecretKey G1 G2)
    (hkey : ∀ i, keygen env pk msk (attrs i) (t i) = .ok (some (sk i), t' i)) (u : ι)
    (dJ : List (Attribute G1 G2)) (hmix : ∀ x ∈ dJ, ∃ i, x ∈ (sk i).dJ)
    (text : Str) (lang : PolicyLanguage) (p : Pol) (hreg : Regular text lang p)
    (hsat : p.sat (dJ.map (·.string)) = true) (hname : ∀ n ∈ p.names, n ∈ dJ.map (·.string) → '_' ∉ n) :
    ∃ S : ι → F → (ℕ → F) → F, (∀ s ω, ∑ i, S i s ω = s) ∧
      (∀ i, p.sat (attrs i) = false → ∀ d, ∃ δ : ℕ → F, ∀ s ω, S i (s + d) (fun n => ω n + δ n) = S i s ω) ∧
      ∀ (plaintext : Bytes) (t₂ t₂' : Tape F G1 G2 Gt) (ct : Ciphertext G1 G2 Gt),
        encrypt env pk text lang plaintext t₂ = .ok (ct, t₂') →
        decryptSymmetric env (t₂.gt 0) ct.data = .ok plaintext ∧
        recoverMsg env ⟨(sk u).d, dJ⟩ ct = .ok (t₂.gt 0 +
          (∑ i, S i (t₂.fr 0) (fun n => t₂.fr (n + 1)) * ((t i).fr 0 - (t u).fr 0)) • env.pair pk.g1 pk.g2) := by
  obtain ⟨α, β, hs⟩ := setup_ok hsetup
  have hk := fun i => keygen_exp (hkey i)
  have hex : ∀ a, ∃ i, ∀ x : Attribute G1 G2, dJ.find? (fun x => x.string == a) = some x → x ∈ (sk i).dJ := by
    intro a
    cases h : dJ.find? (fun x => x.string == a) with
    | none => exact ⟨u, by simp⟩
    | some x =>
      obtain ⟨i, hi⟩ := hmix x (List.mem_of_find?_eq_some h)
      exact ⟨i, by rintro y hy; simp only [Option.some.injEq] at hy; exact hy ▸ hi⟩
  choose own hown using hex
  have hfind : ∀ a ∈ dJ.map (·.string), ∃ x : Attribute G1 G2, dJ.find? (fun x => x.string == a) = some x ∧
      a ∈ attrs (own a) ∧
      ∃ rj : F, x.g1 = rj • pk.g1 ∧ x.g2 = (t (own a)).fr 0 • pk.g2 + rj • env.hash a • pk.g2 := by
    intro a ha
    cases h : dJ.find? (fun x => x.string == a) with
    | none =>
      obtain ⟨x, hx, rfl⟩ := List.mem_map.1 ha
      rw [List.find?_eq_none] at h
      exact absurd (by simp) (h x hx)
    | some x =>
      have hxa : x.string = a := by simpa using List.find?_some h
      obtain ⟨b, hb, hb1, hb2⟩ := Forall₂.mem_right (hk (own a)).dJ x (hown a x h)
      obtain rfl : b = a := hb1.symm.trans hxa
      exact ⟨x, rfl, hb, hb2⟩
  obtain ⟨S, h1, h2, cf, hcf, h3⟩ := mixed_parts (F := F) hreg.labels hreg.fits hreg.wide (dJ.map (·.string)) hsat own attrs
    (fun l hl => by obtain ⟨x, _, h, _⟩ := hfind l.1 (pick_owned _ p l hl); exact h)
  refine ⟨S, h1, h2, fun plaintext t₂ t₂' ct henc => ?_⟩
  obtain ⟨hc, hd⟩ := encrypt_rand hreg.denotes henc
  obtain ⟨sh, hsh, hS⟩ := h3 (t₂.fr 0) (fun n => t₂.fr (n + 1))
  refine ⟨hd, ?_⟩
  rw [recoverMsg_mixed hs (hk u).d (rOf := fun a => (t (own a)).fr 0) hc hsat hreg.wide
    (by intro h; rw [h, sat_nil_of_wide p hreg.wide] at hsat; cases hsat) hreg.labels
    (fun l hl => hname _ (List.mem_map.2 ⟨l, (pick_sublist _ p).subset hl, rfl⟩) (pick_owned _ p l hl))
    (fun a ha => by obtain ⟨x, h, _, h'⟩ := hfind a ha; exact ⟨x, h, h'⟩) hcf hsh]
  have e : ((pick (dJ.map (·.string)) p).map fun l => cf l * sh l * (t (own l.1)).fr 0).sum - t₂.fr 0 * (t u).fr 0 =
      ∑ i, S i (t₂.fr 0) (fun n => t₂.fr (n + 1)) * ((t i).fr 0 - (t u).fr 0) := by
    rw [hS fun i => (t i).fr 0]
    simp only [mul_sub, Finset.sum_sub_distrib, ← Finset.sum_mul, h1]
  rw [e]

/-- Random numbers of an encryption, the secret translated by `d` and its coefficients by `δ`. -/
def translate (t : Tape F G1 G2 Gt) (d : F) (δ : ℕ → F) : Tape F G1 G2 Gt :=
  { t with fr := fun n => match n with | 0 => t.fr 0 + d | n + 1 => t.fr (n + 1) + δ n }

/-- **C68, BSW, partial: two users.** The users `u`, `v` have different exponents and `u` does not satisfy the policy. A
key put together from the first component of `u`'s key and attribute components of both yields the session element for at
most one out of all translations of the random numbers of an encryption. -/
theorem C68_bsw_pair_partial [BigChar F] (env : Env F G1 G2 Gt)
    (t₁ t₁' : Tape F G1 G2 Gt) (pk : PublicKey G1 G2 Gt) (msk : MasterKey F G2)
    (hsetup : setup env t₁ = .ok ((pk, msk), t₁'))
    (attrs attrs' : List Str) (tu tu' tv tv' : Tape F G1 G2 Gt) (sku skv : SecretKey G1 G2)
    (hu : keygen env pk msk attrs tu = .ok (some sku, tu')) (hv : keygen env pk msk attrs' tv = .ok (some skv, tv'))
    (hr : tu.fr 0 ≠ tv.fr 0) (hg : env.pair pk.g1 pk.g2 ≠ 0)
    (dJ : List (Attribute G1 G2)) (hmix : ∀ x ∈ dJ, x ∈ sku.dJ ∨ x ∈ skv.dJ)
    (text : Str) (lang : PolicyLanguage) (p : Pol) (hreg : Regular text lang p)
    (hsat : p.sat (dJ.map (·.string)) = true) (hname : ∀ n ∈ p.names, n ∈ dJ.map (·.string) → '_' ∉ n)
    (hsatu : p.sat attrs = false) :
    ∃ δ : F → ℕ → F, ∀ t₂ : Tape F G1 G2 Gt, ∀ d e : F, ∀ (m n : Bytes) (c c' : Ciphertext G1 G2 Gt)
      (s s' : Tape F G1 G2 Gt), encrypt env pk text lang m (translate t₂ d (δ d)) = .ok (c, s) →
      encrypt env pk text lang n (translate t₂ e (δ e)) = .ok (c', s') →
      recoverMsg env ⟨sku.d, dJ⟩ c = .ok (t₂.gt 0) → recoverMsg env ⟨sku.d, dJ⟩ c' = .ok (t₂.gt 0) → d = e := by
  obtain ⟨S, h1, h2, h3⟩ := C68_bsw_mixed_partial env t₁ t₁' pk msk hsetup (ι := Bool)
    (fun b => if b then attrs' else attrs) (fun b => if b then tv else tu) (fun b => if b then tv' else tu')
    (fun b => if b then skv else sku) (by intro i; cases i <;> simp [hu, hv]) false dJ
    (by
      intro x hx
      rcases hmix x hx with h | h
      · exact ⟨false, by simpa using h⟩
      · exact ⟨true, by simpa using h⟩) text lang p hreg hsat hname
  simp only [Fintype.sum_bool, Bool.false_eq_true, if_false, if_true, sub_self, mul_zero, add_zero] at h1 h3
  choose δ hδ using h2 false (by simpa using hsatu)
  refine ⟨δ, fun t₂ d e m n c c' s s' hc hc' hm hn => ?_⟩
  have key : ∀ {d m c s}, encrypt env pk text lang m (translate t₂ d (δ d)) = .ok (c, s) →
      recoverMsg env ⟨sku.d, dJ⟩ c = .ok (t₂.gt 0) → d = S false (t₂.fr 0) (fun n => t₂.fr (n + 1)) - t₂.fr 0 := by
    intro d m c s hc hm
    obtain ⟨-, h⟩ := h3 m _ s c hc
    rw [h] at hm
    simp only [translate, Res.ok.injEq, add_eq_left, smul_eq_zero, mul_eq_zero, sub_eq_zero, hr.symm, hg,
      or_false] at hm
    have hS := h1 (t₂.fr 0 + d) (fun n => t₂.fr (n + 1) + δ d n)
    rw [hm, hδ, zero_add] at hS
    rw [hS]
    ring
  rw [key hc hm, key hc' hn]

/-- Example for C68: `U` holds `A`, `V` holds `B`; the key made of `U`'s first component, `U`'s component for `A` and `V`'s
component for `B` does not open a message for `"A" and "B"`, while a key of `U` for both does. -/
example : (do
    let x ← setup toyEnv toyTape
    let u ← keygen toyEnv x.1.1 x.1.2 [['A']] toyTape
    let v ← keygen toyEnv x.1.1 x.1.2 [['B']] { toyTape with fr := fun _ => 5 }
    let w ← keygen toyEnv x.1.1 x.1.2 [['A'], ['B']] toyTape
    let z ← encrypt toyEnv x.1.1 (chars% "\"A\" and \"B\"") .human [1, 2, 3] { toyTape with fr := fun _ => 3 }
    let u ← Res.unwrapOption u.1
    let v ← Res.unwrapOption v.1
    let w ← Res.unwrapOption w.1
    Res.ok (decrypt toyEnv ⟨u.d, u.dJ ++ v.dJ⟩ z.1, decrypt toyEnv w z.1)) =
    .ok (.err, .ok [1, 2, 3]) := by decide +kernel

/-- The hypotheses of `C68_bsw_pair_partial` can be met. -/
example : ∃ (pk : PublicKey Fr Fr Fr) (msk : MasterKey Fr Fr) (sku skv : SecretKey Fr Fr)
    (t₁ tu tv : Tape Fr Fr Fr Fr) (p : Pol), setup toyEnv toyTape = .ok ((pk, msk), t₁) ∧
    keygen toyEnv pk msk [['A']] toyTape = .ok (some sku, tu) ∧
    keygen toyEnv pk msk [['B']] { toyTape with fr := fun _ => 5 } = .ok (some skv, tv) ∧
    toyTape.fr 0 ≠ (5 : Fr) ∧ toyEnv.pair pk.g1 pk.g2 ≠ 0 ∧
    Regular (chars% "\"A\" and \"B\"") .human p ∧ p.sat ((sku.dJ ++ skv.dJ).map (·.string)) = true ∧
    p.sat [['A']] = false := by
  obtain ⟨d1, d2, _⟩ := C25_bsw_defined toyEnv
  obtain ⟨pk, msk, t₁, h1⟩ := d1 toyTape (by simp [toyTape])
  obtain ⟨sku, tu, h2⟩ := d2 _ _ _ _ h1 [['A']] (by simp) toyTape
  obtain ⟨skv, tv, h3⟩ := d2 _ _ _ _ h1 [['B']] (by simp) { toyTape with fr := fun _ => 5 }
  have hg : pk.g1 = 1 ∧ pk.g2 = 1 := by
    simp only [setup, RM.bind_ok, RM.genG1, RM.genG2, RM.genFr, RM.pure_ok, Res.ok.injEq, Prod.mk.injEq] at h1
    obtain ⟨g1, s1, ⟨rfl, rfl⟩, g2, s2, ⟨rfl, rfl⟩, β, s3, ⟨rfl, rfl⟩, α, s4, ⟨rfl, rfl⟩, bi, s5, -, ⟨rfl, -⟩, -⟩ := h1
    exact ⟨rfl, rfl⟩
  refine ⟨pk, msk, sku, skv, t₁, tu, tv, .gate .and [.leaf ['A'] 2, .leaf ['B'] 10], h1, h2, h3, ?_, ?_,
    ⟨rfl, by simp, by simp [Pol.Wide], by simp⟩, ?_, by simp⟩
  · show (1 : Fr) ≠ 5
    decide +kernel
  · rw [hg.1, hg.2]
    show (1 : Fr) * 1 ≠ 0
    decide +kernel
  · rw [List.map_append, key_strings (keygen_exp h2), key_strings (keygen_exp h3)]
    simp

end Bsw

namespace Mke08

/-- **C68, MKE08, partial.** A coalition of users with issued keys; a key put together from the user secret of `u` and
attribute keys of any members. If the names satisfy the policy, decryption computes the message element shifted by `r` times the sum, over the attributes of the conjunction that is used, of the attribute's secret exponent times the
difference between the exponents of the owner and of `u`, times a pairing value independent of users and attributes. (Full claim: no public computation with the
keys; false already for one key, see `C52_violated_mke08`.) -/
theorem C68_mke08_mixed_partial (env : Env F G1 G2 Gt) (one : G1 × G2)
    (t₁ t₁' : Tape F G1 G2 Gt) (pk : PublicKey G1 G2 Gt) (msk : MasterKey G1 G2)
    (hsetup : setup env t₁ = .ok ((pk, msk), t₁'))
    (auths : List (SecretAuthorityKey F))
    (hinj : ∀ a ∈ auths, ∀ b ∈ auths, a.name = b.name → a = b)
    {ι : Type} (sk : ι → UserKey G1 G2) (hsk : ∀ i, Issued env pk msk auths (sk i)) (u : ι)
    (skA : List (SecretAttributeKey G1 G2)) (hmix : ∀ k ∈ skA, ∃ i, k ∈ (sk i).skA)
    (pks : List (PublicAttributeKey G1 G2 Gt)) (hpks : Requested env pk auths pks)
    (text : Str) (lang : PolicyLanguage) (p : Pol) (hp : Denotes text lang p)
    (hk : ∀ n ∈ p.names, ∃ k ∈ pks, k.attr = n) (he : p.sat [] = false)
    (plaintext : Bytes) (t₂ t₂' : Tape F G1 G2 Gt) (ct : Ciphertext G1 G2 Gt)
    (henc : encrypt env pk pks text lang plaintext t₂ = .ok (ct, t₂'))
    (hsat : p.sat (skA.map (·.attr)) = true) :
    ∃ (ρ : ι → F) (e : Str → F) (own : Str → ι) (r : F) (msg : Gt), ∃ c ∈ ct.e,
      (∀ i, (sk i).pk.g1 = ρ i • pk.g1) ∧ (∀ k ∈ pks, k.g1 = e k.attr • pk.g1) ∧ c.j3 = r • pk.p1 ∧
      c.str ≠ [] ∧ (∀ a ∈ c.str, a ∈ skA.map (·.attr) ∧ a ∈ (sk (own a)).skA.map (·.attr)) ∧
      decryptSymmetric env msg ct.ct = .ok plaintext ∧
      decrypt env one ⟨(sk u).sk, (sk u).pk, skA⟩ ct = decryptSymmetric env (msg +
        (r * (c.str.map fun a => e a * (ρ (own a) - ρ u)).sum) • (env.pair pk.p1 pk.g2 + env.pair pk.g1 pk.p2)) ct.ct := by
  obtain ⟨y1, y2, hs⟩ := setup_ok hsetup
  obtain ⟨terms, msg1, msg2, hterms, hpol, hd, hj⟩ := encrypt_ok hp henc
  have hc := encrypt_ctOk hs hinj hpks hterms hp hj
  choose ρ g1 g2 g3 g4 g5 using fun i => issued_ok hs hinj (hsk i)
  have hex : ∀ a, ∃ i, ∀ x : SecretAttributeKey G1 G2, skA.find? (fun x => x.attr == a) = some x → x ∈ (sk i).skA := by
    intro a
    cases h : skA.find? (fun x => x.attr == a) with
    | none => exact ⟨u, by simp⟩
    | some x =>
      obtain ⟨i, hi⟩ := hmix x (List.mem_of_find?_eq_some h)
      exact ⟨i, by rintro y hy; simp only [Option.some.injEq] at hy; exact hy ▸ hi⟩
  choose own hown using hex
  have hne : skA ≠ [] := by
    intro h
    rw [h, List.map_nil, he] at hsat
    simp at hsat
  have hcov : Covers (skA.map (·.attr)) terms := by
    refine C22_dnf_complete_partial text lang p hp _ terms hterms ?_ he _ hsat
    intro n hn
    obtain ⟨k, hk', rfl⟩ := hk n hn
    exact ⟨k.view, List.mem_map.2 ⟨k, hk', rfl⟩, rfl⟩
  have hpol' : parse ct.policy.1 ct.policy.2 = .ok p.toValue := by rw [hpol]; exact hp
  have ht : traversePolicy (skA.map (·.attr)) p.toValue .leaf = true := by
    rw [traverse_eq_sat _ (by simpa using hne)]; exact hsat
  obtain ⟨c₀, hc₀, hcs₀⟩ := (covers_e hj _).2 hcov
  cases hf : ct.e.find? fun j => isSatisfiable j.str skA with
  | none =>
    rw [List.find?_eq_none] at hf
    exact absurd ((isSatisfiable_iff _ _).2 hcs₀) (hf c₀ hc₀)
  | some c =>
    have hs' : isSatisfiable c.str skA = true := by simpa using List.find?_some hf
    have hcm := List.mem_of_find?_eq_some hf
    obtain ⟨hcne, r, h1, h1', h2, h3, h4, h5⟩ := hc c hcm
    have hget : ∀ a ∈ c.str, ∃ x, skA.find? (fun x => x.attr == a) = some x ∧ x.attr = a ∧ x ∈ (sk (own a)).skA := by
      intro a ha
      simp only [isSatisfiable, List.all_eq_true] at hs'
      obtain ⟨x, hx⟩ := Option.isSome_iff_exists.1 (hs' a ha)
      exact ⟨x, hx, by simpa using List.find?_some hx, hown a x hx⟩
    refine ⟨ρ, expo env auths, own, r, msg1 + msg2, c, hcm, g3, ?_, h2, hcne, ?_, hd, ?_⟩
    · intro k hk
      obtain ⟨a, ha, attr, hr⟩ := hpks k hk
      obtain ⟨f1, rfl, f3, _⟩ := requestPk_ok hr
      rw [expo_eq hinj ha f1, f3]
    · intro a ha
      obtain ⟨x, hx, hxa, hxm⟩ := hget a ha
      exact ⟨List.mem_map.2 ⟨x, List.mem_of_find?_eq_some hx, hxa⟩, List.mem_map.2 ⟨x, hxm, hxa⟩⟩
    · have hsum : calcSatisfiable one c.str skA =
          (((c.str.map fun a => expo env auths a * ρ (own a)).sum • pk.g1),
            ((c.str.map fun a => expo env auths a * ρ (own a)).sum • pk.g2)) := by
        unfold calcSatisfiable
        rw [conj_sum _ (fun a => (expo env auths a * ρ (own a)) • pk.g1) (fun a => (expo env auths a * ρ (own a)) • pk.g2)
          c.str hcne ?_ one, map_smul_sum, map_smul_sum]
        intro a ha ret i
        obtain ⟨x, hx, hxa, hxm⟩ := hget a ha
        obtain ⟨k1, k2⟩ := g5 _ x hxm
        simp only [hx, k1, k2, hxa]
      simp only [decrypt, hpol', Res.ok_bind, ht, hf, Bool.true_eq_false, if_false]
      congr 1
      have e : (c.str.map fun a => expo env auths a * (ρ (own a) - ρ u)).sum =
          (c.str.map fun a => expo env auths a * ρ (own a)).sum - (c.str.map (expo env auths)).sum * ρ u := by
        generalize c.str = l
        induction l with
        | nil => simp
        | cons a l ih => simp only [List.map_cons, List.sum_cons, ih]; ring
      rw [hsum, e, h1, h1', h2, h3, h4, h5, g1, g2]
      simp only [map_add, map_smul, LinearMap.add_apply, LinearMap.smul_apply]
      module

/-- Example for C68: `U` holds `A::a`, `V` holds `A::b`; with `V`'s attribute key, `U` does not open a message for
`"A::a" and "A::b"`; with their own they do. -/
example : (do
    let x ← setup toyEnv toyTape
    let a ← authgen ['A'] ({ toyTape with fr := fun _ => (7 : Fr) } : Tape Fr Fr Fr Fr)
    let pa ← requestAuthorityPk toyEnv x.1.1 (chars% "A::a") a.1
    let pb ← requestAuthorityPk toyEnv x.1.1 (chars% "A::b") a.1
    let u ← keygen x.1.1 x.1.2 ['U'] toyTape
    let v ← keygen x.1.1 x.1.2 ['V'] ({ toyTape with fr := fun _ => (5 : Fr) } : Tape Fr Fr Fr Fr)
    let ka ← requestAuthoritySk toyEnv u.1.pk  (chars% "A::a") a.1
    let kb ← requestAuthoritySk toyEnv v.1.pk  (chars% "A::b") a.1
    let kb' ← requestAuthoritySk toyEnv u.1.pk  (chars% "A::b") a.1
    let z ← encrypt toyEnv x.1.1 [pa, pb] (chars% "\"A::a\" and \"A::b\"") .human [1, 2, 3] ({ toyTape with fr := fun _ => (3 : Fr) } : Tape Fr Fr Fr Fr)
    Res.ok (decrypt toyEnv (1, 1) ⟨u.1.sk, u.1.pk, [ka, kb]⟩ z.1, decrypt toyEnv (1, 1) ⟨u.1.sk, u.1.pk, [ka, kb']⟩ z.1)) =
    .ok (.err, .ok [1, 2, 3]) := by decide +kernel

end Mke08

namespace Bdabe

/-- **C68, BDABE, partial.** A coalition of users with issued keys; a key put together from the user secret of `u` and
attribute keys of any members. If the names satisfy the policy, decryption computes the message element shifted by `r` times the sum, over the attributes of the conjunction that is used, of the attribute's secret exponent times the
difference between the exponents of the owner and of `u`, times a pairing value independent of users and attributes. (Full claim: no public computation with the
keys; false already for one key, see `C52_violated_bdabe`.) -/
theorem C68_bdabe_mixed_partial (env : Env F G1 G2 Gt) (one : G1 × G2)
    (t₁ t₁' : Tape F G1 G2 Gt) (pk : PublicKey G1 G2 Gt) (msk : MasterKey F)
    (hsetup : setup env t₁ = .ok ((pk, msk), t₁'))
    (auths : List (SecretAuthorityKey F G1 G2)) (hgen : ∀ a ∈ auths, Genuine pk msk a)
    (hinj : ∀ a ∈ auths, ∀ b ∈ auths, a.name = b.name → a = b)
    {ι : Type} (sk : ι → UserKey G1 G2) (hsk : ∀ i, Issued env pk auths (sk i)) (u : ι)
    (skA : List (SecretAttributeKey G1 G2)) (hmix : ∀ k ∈ skA, ∃ i, k ∈ (sk i).skA)
    (pks : List (PublicAttributeKey G1 G2 Gt)) (hpks : Requested env pk auths pks)
    (text : Str) (lang : PolicyLanguage) (p : Pol) (hp : Denotes text lang p)
    (hk : ∀ n ∈ p.names, ∃ k ∈ pks, k.attr = n) (he : p.sat [] = false)
    (plaintext : Bytes) (t₂ t₂' : Tape F G1 G2 Gt) (ct : Ciphertext G1 G2 Gt)
    (henc : encrypt env pk pks text lang plaintext t₂ = .ok (ct, t₂'))
    (hsat : p.sat (skA.map (·.attr)) = true) :
    ∃ (ρ : ι → F) (e : Str → F) (own : Str → ι) (r : F) (msg : Gt), ∃ c ∈ ct.j,
      (∀ i, (sk i).pk.u1 = ρ i • pk.g1) ∧ (∀ k ∈ pks, k.a1 = e k.attr • pk.g1) ∧ c.e2 = r • pk.p1 ∧
      c.attr ≠ [] ∧ (∀ a ∈ c.attr, a ∈ skA.map (·.attr) ∧ a ∈ (sk (own a)).skA.map (·.attr)) ∧
      decryptSymmetric env msg ct.ct = .ok plaintext ∧
      decrypt env one ⟨(sk u).sk, (sk u).pk, skA⟩ ct = decryptSymmetric env (msg +
        (r * (c.attr.map fun a => e a * (ρ (own a) - ρ u)).sum) • (env.pair pk.p1 pk.g2 + env.pair pk.g1 pk.p2)) ct.ct := by
  obtain ⟨terms, msg, hterms, hpol, hd, _, hj⟩ := encrypt_ok hp henc
  have hc := encrypt_ctOk (setup_ok hsetup) hinj hpks hterms hp hj
  choose α β ρ hαβ g1 g2 g3 g4 g5 using fun i => issued_ok hgen hinj (hsk i)
  have hex : ∀ a, ∃ i, ∀ x : SecretAttributeKey G1 G2, skA.find? (fun x => x.attr == a) = some x → x ∈ (sk i).skA := by
    intro a
    cases h : skA.find? (fun x => x.attr == a) with
    | none => exact ⟨u, by simp⟩
    | some x =>
      obtain ⟨i, hi⟩ := hmix x (List.mem_of_find?_eq_some h)
      exact ⟨i, by rintro y hy; simp only [Option.some.injEq] at hy; exact hy ▸ hi⟩
  choose own hown using hex
  have hne : skA ≠ [] := by
    intro h
    rw [h, List.map_nil, he] at hsat
    simp at hsat
  have hcov : Covers (skA.map (·.attr)) terms := by
    refine C22_dnf_complete_partial text lang p hp _ terms hterms ?_ he _ hsat
    intro n hn
    obtain ⟨k, hk', rfl⟩ := hk n hn
    exact ⟨k.view, List.mem_map.2 ⟨k, hk', rfl⟩, rfl⟩
  have hpol' : parse ct.policy.1 ct.policy.2 = .ok p.toValue := by rw [hpol]; exact hp
  have ht : traversePolicy (skA.map (·.attr)) p.toValue .leaf = true := by
    rw [traverse_eq_sat _ (by simpa using hne)]; exact hsat
  obtain ⟨c₀, hc₀, hcs₀⟩ := (covers_j hj _).2 hcov
  cases hf : ct.j.find? fun j => isSatisfiable j.attr skA with
  | none =>
    rw [List.find?_eq_none] at hf
    exact absurd ((isSatisfiable_iff _ _).2 hcs₀) (hf c₀ hc₀)
  | some c =>
    have hs' : isSatisfiable c.attr skA = true := by simpa using List.find?_some hf
    have hcm := List.mem_of_find?_eq_some hf
    obtain ⟨hcne, r, h1, h2, h3, h4, h5⟩ := hc c hcm
    have hget : ∀ a ∈ c.attr, ∃ x, skA.find? (fun x => x.attr == a) = some x ∧ x.attr = a ∧ x ∈ (sk (own a)).skA := by
      intro a ha
      simp only [isSatisfiable, List.all_eq_true] at hs'
      obtain ⟨x, hx⟩ := Option.isSome_iff_exists.1 (hs' a ha)
      exact ⟨x, hx, by simpa using List.find?_some hx, hown a x hx⟩
    refine ⟨ρ, expo env auths, own, r, msg, c, hcm, g3, ?_, h2, hcne, ?_, hd, ?_⟩
    · intro k hk
      obtain ⟨a, ha, attr, hr⟩ := hpks k hk
      obtain ⟨f1, rfl, f3, _⟩ := requestPk_ok hr
      rw [expo_eq hinj ha f1, f3]
    · intro a ha
      obtain ⟨x, hx, hxa, hxm⟩ := hget a ha
      exact ⟨List.mem_map.2 ⟨x, List.mem_of_find?_eq_some hx, hxa⟩, List.mem_map.2 ⟨x, hxm, hxa⟩⟩
    · have hsum : calcSatisfiable one c.attr skA =
          (((c.attr.map fun a => expo env auths a * ρ (own a)).sum • pk.g1),
            ((c.attr.map fun a => expo env auths a * ρ (own a)).sum • pk.g2)) := by
        unfold calcSatisfiable
        rw [conj_sum _ (fun a => (expo env auths a * ρ (own a)) • pk.g1) (fun a => (expo env auths a * ρ (own a)) • pk.g2)
          c.attr hcne ?_ one, map_smul_sum, map_smul_sum]
        intro a ha ret i
        obtain ⟨x, hx, hxa, hxm⟩ := hget a ha
        obtain ⟨k1, k2⟩ := g5 _ x hxm
        simp only [hx, k1, k2, hxa]
      simp only [decrypt, hpol', Res.ok_bind, ht, hf, Bool.true_eq_false, if_false]
      congr 1
      have e : (c.attr.map fun a => expo env auths a * (ρ (own a) - ρ u)).sum =
          (c.attr.map fun a => expo env auths a * ρ (own a)).sum - (c.attr.map (expo env auths)).sum * ρ u := by
        generalize c.attr = l
        induction l with
        | nil => simp
        | cons a l ih => simp only [List.map_cons, List.sum_cons, ih]; ring
      rw [hsum, e, h1, h2, h3, h4, h5, g1, g2]
      rw [← hαβ u]
      simp only [map_add, map_smul, LinearMap.add_apply, LinearMap.smul_apply]
      module

/-- Example for C68: `U` holds `A::a`, `V` holds `A::b`; with `V`'s attribute key, `U` does not open a message for
`"A::a" and "A::b"`; with their own they do. -/
example : (do
    let x ← setup toyEnv toyTape
    let a ← authgen x.1.1 x.1.2 ['A'] ({ toyTape with fr := fun _ => (7 : Fr) } : Tape Fr Fr Fr Fr)
    let pa ← requestAttributePk toyEnv x.1.1 a.1 (chars% "A::a")
    let pb ← requestAttributePk toyEnv x.1.1 a.1 (chars% "A::b")
    let u ← keygen x.1.1 a.1 ['U'] toyTape
    let v ← keygen x.1.1 a.1 ['V'] ({ toyTape with fr := fun _ => (5 : Fr) } : Tape Fr Fr Fr Fr)
    let ka ← requestAttributeSk toyEnv u.1.pk a.1 (chars% "A::a")
    let kb ← requestAttributeSk toyEnv v.1.pk a.1 (chars% "A::b")
    let kb' ← requestAttributeSk toyEnv u.1.pk a.1 (chars% "A::b")
    let z ← encrypt toyEnv x.1.1 [pa, pb] (chars% "\"A::a\" and \"A::b\"") .human [1, 2, 3] ({ toyTape with fr := fun _ => (3 : Fr) } : Tape Fr Fr Fr Fr)
    Res.ok (decrypt toyEnv (1, 1) ⟨u.1.sk, u.1.pk, [ka, kb]⟩ z.1, decrypt toyEnv (1, 1) ⟨u.1.sk, u.1.pk, [ka, kb']⟩ z.1)) =
    .ok (.err, .ok [1, 2, 3]) := by decide +kernel

end Bdabe

end Rabe
