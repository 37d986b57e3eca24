import Verif.Props.Identities
import Mathlib.LinearAlgebra.Dual.Lemmas
import Verif.Instance.Bn

/-!
# C85: two users open nothing that neither opens alone; the exact condition for any number of users
-/

set_option linter.unusedSectionVars false

namespace Rabe
namespace Aw11

variable {F G1 G2 Gt : Type} [Field F] [DecidableEq F] [AddCommGroup G1] [Module F G1]
  [AddCommGroup G2] [Module F G2] [AddCommGroup Gt] [Module F Gt]

/-- A set of names that does not satisfy the policy does not notice a change of the secret by one. -/
theorem hides_one [BigChar F] (ρ : Str → Str) (names : List Str) (p : Pol) (hf : p.Fits)
    (hsat : (rename ρ p).sat names = false) :
    ∃ δ : ℕ → F, ∀ i l, p.leaves[i]? = some l → ρ l.1 ∈ names → shareAt p 1 δ i = 0 := by
  obtain ⟨δ, hδ⟩ := hides (F := F) names (rename ρ p) ((arity_rename ρ _ p).2 hf) hsat 1
  refine ⟨δ, fun i l hl hmem => ?_⟩
  have h1 := hδ 0 (fun _ => 0) i (ρ l.1, l.2) (by rw [leaves_rename, List.getElem?_map, hl]; rfl) hmem
  rw [shareVals_rename, shareVals_rename, zero_add] at h1
  have h0 := shareAt_zero (F := F) p i
  rw [shareAt_eq, h1] at h0
  rw [shareAt_eq]
  convert h0 using 4
  funext i
  simp

/-- Two users, neither of whom satisfies the policy. -/
theorem hidden_two [BigChar F] (cm : CaseMap) (env : Env F G1 G2 Gt) (auths : List (AuthJob F G1 G2 Gt)) (p : Pol)
    (hf : p.Fits) (a b : Holder) (hab : env.hash a.gid ≠ env.hash b.gid)
    (ha : (rename (fun s => removeIndex (cm.upper s)) p).sat (a.requests.map (·.2)) = false)
    (hb : (rename (fun s => removeIndex (cm.upper s)) p).sat (b.requests.map (·.2)) = false) :
    Hidden cm env auths p [a, b] := by
  obtain ⟨δa, hδa⟩ := hides_one (F := F) _ _ p hf ha
  obtain ⟨δb, hδb⟩ := hides_one (F := F) _ _ p hf hb
  have hne : env.hash a.gid - env.hash b.gid ≠ 0 := sub_ne_zero.2 hab
  set c := (env.hash a.gid - env.hash b.gid)⁻¹ with hc
  set δ' : ℕ → F := fun i => c * (δa i - δb i) with hδ'
  set δ : ℕ → F := fun i => δa i - env.hash a.gid * δ' i with hδ
  have mem : ∀ (h : Holder) r, r ∈ h.requests → ∀ (l : Str × ℕ) x,
      findPkAttr (removeIndex (cm.upper l.1)) (places cm auths) = some x → place cm auths r = some x.e →
      removeIndex (cm.upper l.1) ∈ h.requests.map (·.2) := by
    intro h r hr l x hx hpl
    obtain ⟨-, -, A, hA, m, hm, hup⟩ := findPkAttr_places hx
    obtain ⟨A', hA', m', hm', hup'⟩ := place_spec hpl
    rw [hA] at hA'
    obtain rfl := Option.some.inj hA'
    rw [hm] at hm'
    obtain rfl := Option.some.inj hm'
    exact List.mem_map.2 ⟨r, hr, hup'.symm.trans hup⟩
  have add : ∀ g i, shareAt p 1 δ i + g * shareAt p 0 δ' i = shareAt p 1 (fun i => δ i + g * δ' i) i := by
    intro g i
    rw [← shareAt_lin, mul_zero, add_zero]
  refine ⟨δ, δ', ?_⟩
  simp only [List.mem_cons, List.not_mem_nil, or_false, forall_eq_or_imp, forall_eq]
  refine ⟨fun r hr i l x hl hx hpl => ?_, fun r hr i l x hl hx hpl => ?_⟩
  · rw [add]
    convert hδa i l hl (mem a r hr l x hx hpl) using 2
    funext j
    simp only [hδ]
    ring
  · rw [add]
    convert hδb i l hl (mem b r hr l x hx hpl) using 2
    funext j
    have : (env.hash a.gid - env.hash b.gid) * c = 1 := mul_inv_cancel₀ hne
    simp only [hδ, hδ']
    linear_combination (-(δa j - δb j)) * this

open Classical in
/-- **C85: two users open nothing that neither opens alone**, also if they have attributes in common. -/
theorem C85_two_users_lookup [BigChar F] [Fintype F] [Fintype Gt] (cm : CaseMap) (env : Env F G1 G2 Gt) (k : Formula F)
    (t : Tape F G1 G2 Gt) (hpair : env.pair (t.g1 0) (t.g2 0) ≠ 0) (auths : List (AuthJob F G1 G2 Gt)) (M K : ℕ)
    (hM : auths.length ≤ M) (hK : ∀ A ∈ auths, 2 * A.attrs.length ≤ K)
    (a b : Holder) (hab : env.hash a.gid ≠ env.hash b.gid) (job : CpJob F G1 G2 Gt) (p : Pol)
    (hp : Denotes job.text job.lang p) (hlen : job.text.length < 2 ^ 64)
    (ha : (rename (fun s => removeIndex (cm.upper s)) p).sat (a.requests.map (·.2)) = false)
    (hb : (rename (fun s => removeIndex (cm.upper s)) p).sat (b.requests.map (·.2)) = false)
    (others : List (CpJob F G1 G2 Gt)) (extra : View G1 G2 Gt) (n : ℕ)
    (hn : 1 + draws p + draws p + p.leaves.length ≤ n) :
    (Finset.univ.filter (OpenedByUsers cm env k t auths [a, b] job others extra (M := M) (K := K) (n := n))).card *
      Fintype.card F ≤ 3 * Fintype.card ((Fin M → Fin K → F) × (Fin n → F) × Gt) := by
  have hf : p.Fits := by
    obtain ⟨q, hq, hf, _⟩ := parse_ok hp
    rw [toValue_inj _ _ hq]; exact hf hlen
  exact C85_hidden cm env k t hpair auths M K hM hK [a, b] job p hp (hidden_two cm env auths p hf a b hab ha hb) others
    extra n hn

open Classical in
/-- **C85, partial: names without underscore.** As `C85_two_users_lookup`, with the policy read as it is written (in upper
case). (Full claim: for all attribute names; false, see `C85_violated`.) -/
theorem C85_two_users_partial [BigChar F] [Fintype F] [Fintype Gt] (cm : CaseMap) (env : Env F G1 G2 Gt) (k : Formula F)
    (t : Tape F G1 G2 Gt) (hpair : env.pair (t.g1 0) (t.g2 0) ≠ 0) (auths : List (AuthJob F G1 G2 Gt)) (M K : ℕ)
    (hM : auths.length ≤ M) (hK : ∀ A ∈ auths, 2 * A.attrs.length ≤ K)
    (a b : Holder) (hab : env.hash a.gid ≠ env.hash b.gid) (job : CpJob F G1 G2 Gt) (p : Pol)
    (hp : Denotes job.text job.lang p) (hlen : job.text.length < 2 ^ 64) (hu : ∀ l ∈ p.leaves, '_' ∉ l.1)
    (ha : (rename cm.upper p).sat (a.requests.map (·.2)) = false)
    (hb : (rename cm.upper p).sat (b.requests.map (·.2)) = false)
    (others : List (CpJob F G1 G2 Gt)) (extra : View G1 G2 Gt) (n : ℕ)
    (hn : 1 + draws p + draws p + p.leaves.length ≤ n) :
    (Finset.univ.filter (OpenedByUsers cm env k t auths [a, b] job others extra (M := M) (K := K) (n := n))).card *
      Fintype.card F ≤ 3 * Fintype.card ((Fin M → Fin K → F) × (Fin n → F) × Gt) := by
  have e : rename (fun s => removeIndex (cm.upper s)) p = rename cm.upper p := by
    refine rename_congr p fun l hl => removeIndex_of_not_mem ?_
    intro hmem
    obtain ⟨c, hc, hc'⟩ := List.mem_flatMap.1 hmem
    exact hu l hl (cm.only_underscore c hc' ▸ hc)
  rw [← e] at ha hb
  exact C85_two_users_lookup cm env k t hpair auths M K hM hK a b hab job p hp hlen ha hb others extra n hn

/-- **C85 is violated** by names with an underscore, as C84: the users `U` with `A` and `V` with `C` do not satisfy the
policy `"A_B"`, and decryption refuses both. Encryption took the public key of `A`, so the key of `U` gives the plaintext
after the ciphertext is relabelled. -/
theorem C85_violated : (do
    let x ← setup toyTape
    let y ← authgen asciiCase toyEnv x.1 [['A'], ['C']] { toyTape with fr := fun n => n + 2 }
    let a ← Res.unwrapOption y.1
    let u ← keygen asciiCase toyEnv x.1 a.2 ['U'] [['A']]
    let v ← keygen asciiCase toyEnv x.1 a.2 ['V'] [['C']]
    let z ← encrypt asciiCase toyEnv x.1 [a.1] (chars% "\"A_B\"") .human [1, 2, 3] { toyTape with fr := fun n => n + 3 }
    let c := z.1.c.map fun (c : CtAttr Fr Fr) => { c with name := (chars% "A_2") }
    let ct := { z.1 with policy := ((chars% "\"A\""), .human), c := c }
    Res.ok (decrypt toyEnv x.1 u z.1, decrypt toyEnv x.1 v z.1, decrypt toyEnv x.1 u ct, decrypt toyEnv x.1 v ct)) =
    .ok (.err, .err, .ok [1, 2, 3], .err) := by decide +kernel

/-! ## The converse -/

theorem mem_components {cm : CaseMap} {env : Env F G1 G2 Gt} {auths : List (AuthJob F G1 G2 Gt)} {holders : List Holder}
    {h : Holder} {r : ℕ × Str} {q : ℕ × ℕ} (hh : h ∈ holders) (hr : r ∈ h.requests) (hq : place cm auths r = some q) :
    (q, env.hash h.gid) ∈ components cm env auths holders :=
  List.mem_flatMap.2 ⟨h, hh, List.mem_map.2 ⟨q, List.mem_filterMap.2 ⟨r, hr, hq⟩, rfl⟩⟩

theorem mem_found {cm : CaseMap} {auths : List (AuthJob F G1 G2 Gt)} {p : Pol} {i : ℕ} {l : Str × ℕ}
    {a : PubAttr (ℕ × ℕ) (ℕ × ℕ)} (hl : p.leaves[i]? = some l)
    (ha : findPkAttr (removeIndex (cm.upper l.1)) (places cm auths) = some a) :
    (a, i) ∈ found cm (places cm auths) (p.leaves.map leafIdx) 0 := by
  refine List.mem_filterMap.2 ⟨(leafIdx l, i), ?_, ?_⟩
  · rw [List.mem_zipIdx_iff_getElem?, List.getElem?_map, hl]; rfl
  · simp only [removeIndex_upper_leaf, ha, Option.map_some]

/-- If nothing is hidden, the secret is a combination of what the components see. -/
theorem span_of_not_hidden {cm : CaseMap} {env : Env F G1 G2 Gt} {auths : List (AuthJob F G1 G2 Gt)} {p : Pol}
    {holders : List Holder} (h : ¬Hidden cm env auths p holders) (n : ℕ) (R : List (PubAttr (ℕ × ℕ) (ℕ × ℕ) × ℕ))
    (hR : R = found cm (places cm auths) (p.leaves.map leafIdx) 0) (res : List ((ℕ × ℕ) × F))
    (hres : res = components cm env auths holders) :
    ∃ c : Fin R.length → Fin res.length → F, (∀ j i, res[i].1 ≠ R[j].1.e → c j i = 0) ∧
      ∀ f : Fin n → F, strm f 0 = ∑ j, ∑ i, c j i * (shareMap n p R[j].2 f + res[i].2 * zeroMap n p R[j].2 f) := by
  let L : Fin R.length × Fin res.length → (Fin n → F) →ₗ[F] F := fun x =>
    if res[x.2].1 = R[x.1].1.e then shareMap n p R[x.1].2 + res[x.2].2 • zeroMap n p R[x.1].2 else 0
  have hmem : strmMap n 0 ∈ Submodule.span F (Set.range L) := by
    refine mem_span_of_iInf_ker_le_ker fun f hf => ?_
    rw [LinearMap.mem_ker]
    by_contra hne
    refine h ⟨fun i => (strmMap n 0 f)⁻¹ * strm f (1 + i), fun i => (strmMap n 0 f)⁻¹ * strm f (1 + draws p + i), ?_⟩
    intro g hg r hr i l a hl ha hpl
    obtain ⟨j, hj, hj'⟩ := List.getElem_of_mem (hR ▸ mem_found hl ha)
    obtain ⟨i', hi, hi'⟩ := List.getElem_of_mem (hres ▸ mem_components (env := env) hg hr hpl)
    rw [Submodule.mem_iInf] at hf
    have := hf (⟨j, hj⟩, ⟨i', hi⟩)
    rw [LinearMap.mem_ker] at this
    have hj'' : R[j] = (a, i) := hj'
    have hi'' : res[i'] = (a.e, env.hash g.gid) := hi'
    simp only [L, Fin.getElem_fin, hj'', hi'', if_true] at this
    have e1 : (1 : F) = 0 + (strmMap n 0 f)⁻¹ * strm f 0 := by
      rw [zero_add]; exact (inv_mul_cancel₀ hne).symm
    have e2 : ∀ k, (fun i => (strmMap n 0 f)⁻¹ * strm f (k + i)) = fun i => (0 : F) + (strmMap n 0 f)⁻¹ * dropS k (strm f) i := by
      intro k; funext i; rw [zero_add]; rfl
    have s1 : shareAt p 1 (fun i => (strmMap n 0 f)⁻¹ * strm f (1 + i)) i = (strmMap n 0 f)⁻¹ * shareMap n p i f := by
      rw [e2]
      conv_lhs => rw [e1]
      rw [shareAt_lin, shareAt_zero, zero_add]
      rfl
    have s2 : shareAt p 0 (fun i => (strmMap n 0 f)⁻¹ * strm f (1 + draws p + i)) i =
        (strmMap n 0 f)⁻¹ * zeroMap n p i f := by
      have := shareAt_lin p (strmMap n 0 f)⁻¹ 0 0 (fun _ => 0) (dropS (1 + draws p) (strm f)) i
      rw [mul_zero, add_zero, shareAt_zero, zero_add] at this
      rw [e2, this]
      rfl
    rw [s1, s2]
    have h3 : shareMap n p i f + env.hash g.gid * zeroMap n p i f = 0 := this
    linear_combination (strmMap n 0 f)⁻¹ * h3
  rw [Submodule.mem_span_range_iff_exists_fun] at hmem
  obtain ⟨c, hc⟩ := hmem
  refine ⟨fun j i => if res[i].1 = R[j].1.e then c (j, i) else 0, fun j i h => if_neg h, fun f => ?_⟩
  have := congrArg (fun g => g f) hc
  change _ = strm f 0 at this
  rw [← this]
  simp only [LinearMap.sum_apply, LinearMap.smul_apply, smul_eq_mul, Fintype.sum_prod_type, L]
  refine Finset.sum_congr rfl fun j _ => Finset.sum_congr rfl fun i _ => ?_
  by_cases hji : res[i].1 = R[j].1.e
  · simp only [hji, if_true]
    rfl
  · simp only [hji, if_false]
    simp

/-- The runs of `OpenedByUsers` succeed. -/
def Runs (cm : CaseMap) (env : Env F G1 G2 Gt) (t : Tape F G1 G2 Gt)
    (auths : List (AuthJob F G1 G2 Gt)) (holders : List Holder) (job : CpJob F G1 G2 Gt) {M K n : ℕ}
    (x : (Fin M → Fin K → F) × (Fin n → F) × Gt) : Prop :=
  ∃ gk t' keys sks ct u, setup t = .ok (gk, t') ∧
    List.Forall₂ (fun A key => ∃ u, authgen cm env gk A.attrs A.tape = .ok (some key, u)) (redraw auths x.1) keys ∧
    List.Forall₂ (fun h sk => issue cm env gk (keys.map (·.2)) h = .ok sk) holders sks ∧
    encrypt cm env gk (keys.map (·.1)) job.text job.lang job.plain ((job.tape.setFirst x.2.1).setGt x.2.2) = .ok (ct, u)

/-- The computation that opens the ciphertext, from the coefficients of `span_of_not_hidden`: `J` components in the
ciphertext, `L` in the keys, `D` in the public keys. -/
def opener (D : ℕ) {J L : ℕ} (c : Fin J → Fin L → F) (h : Fin L → F) : Formula F where
  pairs i j := if j < 1 + D then 0 else
    if hj : j - (1 + D) < J then (if hi : i < L then c ⟨j - (1 + D), hj⟩ ⟨i, hi⟩ else 0) else
    if hj : j - (1 + D) - J < J then (if i = L then -∑ k, c ⟨j - (1 + D) - J, hj⟩ k * h k else 0) else 0
  tgt j := if j < D then 0 else if j = D then 1 else
    if hj : j - (D + 1) < J then -∑ k, c ⟨j - (D + 1), hj⟩ k else 0

theorem pairUp_zero (env : Env F G1 G2 Gt) (u : ℕ → G1) : ∀ (n : ℕ) (l : List G2),
    (∀ i, n ≤ i → i < n + l.length → u i = 0) → pairUp env u n l = 0
  | _, [], _ => rfl
  | n, x :: l, h => by
    rw [pairUp, h n le_rfl (by simp), pairUp_zero env u (n + 1) l fun i h1 h2 => h i (by omega) (by simp; omega)]
    simp

theorem weigh_zero {V : Type} [AddCommGroup V] [Module F V] (f : ℕ → F) : ∀ (n : ℕ) (l : List V),
    (∀ i, n ≤ i → i < n + l.length → f i = 0) → weigh f n l = 0
  | _, [], _ => rfl
  | n, x :: l, h => by
    rw [weigh, h n le_rfl (by simp), weigh_zero f (n + 1) l fun i h1 h2 => h i (by omega) (by simp; omega)]
    simp

set_option maxHeartbeats 1000000 in
/-- **C85, the converse: if nothing is hidden, one computation always opens.** It depends on the policy, the names and the
hashes of the identities only, and uses nothing but the keys of the users, the public keys and the ciphertext. -/
theorem C85_exposed (cm : CaseMap) (env : Env F G1 G2 Gt) (t : Tape F G1 G2 Gt)
    (auths : List (AuthJob F G1 G2 Gt)) (M K : ℕ)
    (hM : auths.length ≤ M) (hK : ∀ A ∈ auths, 2 * A.attrs.length ≤ K)
    (holders : List Holder) (job : CpJob F G1 G2 Gt) (p : Pol) (hp : Denotes job.text job.lang p)
    (hexp : ¬Hidden cm env auths p holders) (n : ℕ) (hn : 1 + draws p + draws p + p.leaves.length ≤ n) :
    ∃ k : Formula F, ∀ x : (Fin M → Fin K → F) × (Fin n → F) × Gt, Runs cm env t auths holders job x →
      OpenedByUsers cm env k t auths holders job [] ⟨[], [], []⟩ x := by
  set fk := places cm auths with hfk
  set R := found cm fk (p.leaves.map leafIdx) 0 with hR
  set res := components cm env auths holders with hres
  set LL := (fk.flatMap fun pk => pk.attr.map fun b => b.e).length with hLL
  obtain ⟨c, hc0, hc⟩ := span_of_not_hidden hexp n R hR res hres
  refine ⟨opener LL c fun i => res[i].2, ?_⟩
  rintro ⟨z, f, m⟩ ⟨gk, t', keys, sks, ct, u, hs, ha, hi, he⟩
  refine ⟨gk, t', keys, sks, ct, u, [], hs, ha, hi, he, .nil, ?_⟩
  obtain rfl := setup_eq hs
  have hpk := redraw_pks hM hK ha
  rw [← hfk] at hpk
  rw [hpk] at he
  rw [msks_eq ha] at hi
  have hone := keys_one (G2 := G2) (Gt := Gt) hM hK hi
  rw [← hres] at hone
  obtain ⟨s2, s3⟩ := sks_seen (G2 := G2) (Gt := Gt) sks
  have hct := ct_strm hp hn he
  rw [← hfk, ← hR] at hct
  rw [show keys.map (fun key => (key.1.seen : View G1 G2 Gt)) = (keys.map (·.1)).map PublicKey.seen by simp, hpk]
  have hlenT := keys_length (G1 := G1) (G2 := G2) (fun p : ℕ × ℕ => ye p z • t.g2 0)
    (fun p : ℕ × ℕ => al p z • env.pair (t.g1 0) (t.g2 0)) fk
  obtain ⟨k1, hlen2⟩ := keys_length_two (G1 := G1) (G2 := G2) (fun p : ℕ × ℕ => ye p z • t.g2 0)
    (fun p : ℕ × ℕ => al p z • env.pair (t.g1 0) (t.g2 0)) fk
  rw [← hLL] at hlen2 hlenT
  set E := env.pair (t.g1 0) (t.g2 0) with hE
  rw [eval_pairUp]
  simp only [View.all, View.join, hct, hone, k1, s2, s3, GlobalKey.seen, List.append_nil, List.nil_append, List.map_nil]
  generalize hu : (fun j => weigh (fun i => (opener LL c fun i => res[i].2).pairs i j) 0
    (res.map (fun x => (al x.1 z + x.2 * ye x.1 z) • t.g1 0) ++ [t.g1 0])) = v
  have hv0 : ∀ j, j < 1 + LL → v j = 0 := by
    intro j hj
    rw [← hu]
    exact weigh_zero _ _ _ fun i _ _ => by simp [opener, hj]
  have hU : ∀ j, env.pair (v j) (t.g2 0) = (opener LL c fun i => res[i].2).pairs res.length j • E +
      (∑ i : Fin res.length, (opener LL c fun i => res[i].2).pairs i j * (al res[i].1 z + res[i].2 * ye res[i].1 z)) • E := by
    intro j
    rw [← hu]
    have := pair_left env (⟨t.g1 0, t.g2 0⟩ : GlobalKey G1 G2) (fun i => (opener LL c fun i => res[i].2).pairs i j) [] res
      fun x => al x.1 z + x.2 * ye x.1 z
    simp only [List.nil_append, weigh, List.length_nil, zero_add, map_smul, LinearMap.smul_apply] at this
    exact this
  have hU2 : ∀ j : Fin R.length, env.pair (v (1 + LL + j)) (t.g2 0) =
      (∑ i, c j i * (al res[i].1 z + res[i].2 * ye res[i].1 z)) • E := by
    intro j
    rw [hU]
    simp [opener, show ¬(1 + LL + j.1 < 1 + LL) by omega]
  have hU3 : ∀ j : Fin R.length, env.pair (v (1 + LL + R.length + j)) (t.g2 0) = (-∑ i, c j i * res[i].2) • E := by
    intro j
    rw [hU]
    have e1 : ¬(1 + LL + R.length + j.1 < 1 + LL) := by omega
    have e2 : 1 + LL + R.length + j.1 - (1 + LL) = R.length + j.1 := by omega
    have e3 : ∀ i : Fin res.length, i.1 ≠ res.length := fun i => i.2.ne
    simp [opener, e1, e2, e3]
  have ht0 : (opener LL c fun i => res[i].2).tgt LL = 1 := by simp [opener]
  have ht1 : ∀ j : Fin R.length, (opener LL c fun i => res[i].2).tgt (LL + 1 + j) = -∑ i, c j i := by
    intro j
    simp [opener, show ¬(LL + 1 + j.1 < LL) by omega, show LL + 1 + j.1 ≠ LL by omega]
  simp only [pairUp_append, weigh_append, zero_add, List.length_cons, List.length_nil,
    List.length_map, hlenT, hlen2, pairUp_eq_sum, weigh_eq_sum, weigh, map_smul, hU2, hU3, ht0, ht1]
  rw [pairUp_zero env v 0 [t.g2 0] (fun i _ h => hv0 i (by simp at h; omega)),
    pairUp_zero env v 1 _ (fun i _ h => hv0 i (by rw [hlen2] at h; omega)),
    weigh_zero _ 0 _ (fun i _ h => by rw [hlenT] at h; simp [opener, show i < LL by omega])]
  have h1 : ∀ (j : Fin R.length) (i : Fin res.length), c j i * (al res[i].1 z + res[i].2 * ye res[i].1 z) =
      c j i * (al R[j].1.e z + res[i].2 * ye R[j].1.e z) := by
    intro j i
    by_cases h : res[i].1 = R[j].1.e
    · rw [h]
    · rw [hc0 j i h]; simp
  have hfin : strm f 0 = ∑ j : Fin R.length, ((∑ i, c j i) * shareAt p (strm f 0) (dropS 1 (strm f)) R[j].2 +
      (∑ i, c j i * res[i].2) * shareAt p 0 (dropS (1 + draws p) (strm f)) R[j].2) := by
    refine (hc f).trans (Finset.sum_congr rfl fun j _ => ?_)
    rw [Finset.sum_mul, Finset.sum_mul, ← Finset.sum_add_distrib]
    refine Finset.sum_congr rfl fun i _ => ?_
    change c j i * (shareAt p (strm f 0) (dropS 1 (strm f)) R[j].2 +
      res[i].2 * shareAt p 0 (dropS (1 + draws p) (strm f)) R[j].2) = _
    ring
  have h2 : ∀ j : Fin R.length, strm f (1 + draws p + draws p + R[j].2) •
        (∑ i, c j i * (al res[i].1 z + res[i].2 * ye res[i].1 z)) • E +
      (strm f (1 + draws p + draws p + R[j].2) * ye R[j].1.e z + shareAt p 0 (dropS (1 + draws p) (strm f)) R[j].2) •
        (-∑ i, c j i * res[i].2) • E +
      (-∑ i, c j i) • (shareAt p (strm f 0) (dropS 1 (strm f)) R[j].2 +
        strm f (1 + draws p + draws p + R[j].2) * al R[j].1.e z) • E =
      -((∑ i, c j i) * shareAt p (strm f 0) (dropS 1 (strm f)) R[j].2 +
        (∑ i, c j i * res[i].2) * shareAt p 0 (dropS (1 + draws p) (strm f)) R[j].2) • E := by
    intro j
    have : ∑ i, c j i * (al res[i].1 z + res[i].2 * ye res[i].1 z) =
        (∑ i, c j i) * al R[j].1.e z + (∑ i, c j i * res[i].2) * ye R[j].1.e z := by
      rw [Finset.sum_mul, Finset.sum_mul, ← Finset.sum_add_distrib]
      refine Finset.sum_congr rfl fun i _ => ?_
      rw [h1]
      ring
    rw [this]
    module
  have h3 := Finset.sum_congr rfl fun (j : Fin R.length) (_ : j ∈ Finset.univ) => h2 j
  rw [← Finset.sum_smul, Finset.sum_neg_distrib, ← hfin] at h3
  simp only [Finset.sum_add_distrib] at h3
  rw [zero_add, zero_add, zero_add, one_smul, add_comm (m + _), ← add_assoc, h3]
  module

/-- **C85, the exact condition.** If all runs succeed, there is a computation that always opens if and only if nothing is
hidden from the users. -/
theorem C85_exact [BigChar F] [Fintype F] [Fintype Gt] (cm : CaseMap) (env : Env F G1 G2 Gt) (t : Tape F G1 G2 Gt)
    (hpair : env.pair (t.g1 0) (t.g2 0) ≠ 0) (hq : 3 < Fintype.card F) (auths : List (AuthJob F G1 G2 Gt)) (M K : ℕ)
    (hM : auths.length ≤ M) (hK : ∀ A ∈ auths, 2 * A.attrs.length ≤ K)
    (holders : List Holder) (job : CpJob F G1 G2 Gt) (p : Pol) (hp : Denotes job.text job.lang p)
    (n : ℕ) (hn : 1 + draws p + draws p + p.leaves.length ≤ n)
    (hrun : ∀ x : (Fin M → Fin K → F) × (Fin n → F) × Gt, Runs cm env t auths holders job x) :
    (∃ k : Formula F, ∀ x : (Fin M → Fin K → F) × (Fin n → F) × Gt,
      OpenedByUsers cm env k t auths holders job [] ⟨[], [], []⟩ x) ↔ ¬Hidden cm env auths p holders := by
  classical
  refine ⟨?_, fun h => ?_⟩
  · rintro ⟨k, hk⟩ hid
    have := C85_hidden cm env k t hpair auths M K hM hK holders job p hp hid [] ⟨[], [], []⟩ n hn
    rw [Finset.filter_true_of_mem fun x _ => hk x, Finset.card_univ, Nat.mul_comm] at this
    have := Nat.le_of_mul_le_mul_right this Fintype.card_pos
    omega
  · obtain ⟨k, hk⟩ := C85_exposed cm env t auths M K hM hK holders job p hp h n hn
    exact ⟨k, fun x => hk x (hrun x)⟩

/-- An authority with two attributes, a user with one of them and a policy that needs both: all runs succeed. -/
example : ∀ x : (Fin 1 → Fin 4 → Fr) × (Fin 5 → Fr) × Fr, Runs asciiCase toyEnv toyTape [⟨[['A'], ['B']], toyTape⟩]
    [⟨['U'], [(0, ['A'])]⟩] ⟨chars% "\"A\" and \"B\"", .human, [1, 2, 3], toyTape⟩ x :=
  fun _ => ⟨_, _, _, _, _, _, rfl, .cons ⟨_, rfl⟩ .nil, .cons rfl .nil, rfl⟩

/-- The three users of `C41_violated_siblings`: nothing is hidden from them, so `C85_exposed` applies. -/
example : Denotes (chars% "\"A\" and (\"B\" or \"C\")") .human
      (.gate .and [.leaf ['A'] 2, .gate .or [.leaf ['B'] 11, .leaf ['C'] 18]]) ∧
    ¬Hidden asciiCase toyEnv [⟨[['A'], ['B'], ['C']], toyTape⟩]
      (.gate .and [.leaf ['A'] 2, .gate .or [.leaf ['B'] 11, .leaf ['C'] 18]])
      [⟨['U'], [(0, ['A'])]⟩, ⟨['V'], [(0, ['B'])]⟩, ⟨['W'], [(0, ['C'])]⟩] := by
  refine ⟨rfl, ?_⟩
  rintro ⟨δ, δ', h⟩
  have sh : ∀ (σ : Fr) (ω : ℕ → Fr), shareVals (.gate .and [.leaf ['A'] 2, .gate .or [.leaf ['B'] 11, .leaf ['C'] 18]]) σ ω =
      [σ + ω 0, σ + 2 * ω 0, σ + 2 * ω 0] := fun σ ω => by
    simp [shareVals, shareValsL, gateShare, thr, polynomial, polynomialFrom]
    ring
  have h1 := h ⟨['U'], [(0, ['A'])]⟩ (by simp) (0, ['A']) (by simp) 0 (['A'], 2) ⟨['A'], (0, 0), (0, 0)⟩ (by simp)
    rfl (by decide +kernel)
  have h2 := h ⟨['V'], [(0, ['B'])]⟩ (by simp) (0, ['B']) (by simp) 1 (['B'], 11) ⟨['B'], (0, 1), (0, 1)⟩ (by simp)
    rfl (by decide +kernel)
  have h3 := h ⟨['W'], [(0, ['C'])]⟩ (by simp) (0, ['C']) (by simp) 2 (['C'], 18) ⟨['C'], (0, 2), (0, 2)⟩ (by simp)
    rfl (by decide +kernel)
  simp only [shareAt_eq, sh, List.getElem?_cons_zero, List.getElem?_cons_succ, Option.getD_some, zero_add] at h1 h2 h3
  have hne : toyEnv.hash ['V'] ≠ toyEnv.hash ['W'] := by decide +kernel
  have h20 : (2 : Fr) ≠ 0 := by decide +kernel
  have hz : δ' 0 = 0 := by
    have : (toyEnv.hash ['V'] - toyEnv.hash ['W']) * (2 * δ' 0) = 0 := by linear_combination h2 - h3
    simpa [sub_ne_zero.2 hne, h20] using this
  rw [hz, mul_zero, add_zero] at h1
  rw [hz, mul_zero, mul_zero, add_zero] at h2
  have : (1 : Fr) = 0 := by linear_combination 2 * h1 - h2
  exact absurd this (by decide +kernel)

/-- Two users with the attribute `B` in common, and a policy neither of them satisfies. The secret of the encryption is
zero: then the session element is read off the ciphertext, so the set counted in `C85_two_users_partial` is not empty. -/
example : toyEnv.pair (toyTape.g1 0) (toyTape.g2 0) ≠ 0 ∧ toyEnv.hash ['U'] ≠ toyEnv.hash ['V'] ∧
    Denotes (chars% "\"A\" and (\"B\" and \"C\")") .human (.gate .and [.leaf ['A'] 2, .gate .and [.leaf ['B'] 11, .leaf ['C'] 19]]) ∧
    (rename asciiCase.upper (.gate .and [.leaf ['A'] 2, .gate .and [.leaf ['B'] 11, .leaf ['C'] 19]])).sat [['A'], ['B']] = false ∧
    (rename asciiCase.upper (.gate .and [.leaf ['A'] 2, .gate .and [.leaf ['B'] 11, .leaf ['C'] 19]])).sat [['B'], ['C']] = false ∧
    draws (.gate .and [.leaf ['A'] 2, .gate .and [.leaf ['B'] 11, .leaf ['C'] 19]]) = 2 ∧
    OpenedByUsers asciiCase toyEnv ⟨fun _ _ => 0, fun i => if i = 3 then 1 else 0⟩ toyTape
      [⟨[['A'], ['B'], ['C']], toyTape⟩] [⟨['U'], [(0, ['A']), (0, ['B'])]⟩, ⟨['V'], [(0, ['B']), (0, ['C'])]⟩]
      ⟨chars% "\"A\" and (\"B\" and \"C\")", .human, [1, 2, 3], toyTape⟩ []
      ⟨[], [], []⟩ (M := 1) (K := 6) (n := 8) (![![5, 6, 7, 8, 9, 10]], ![0, 3, 4, 5, 6, 7, 8, 9], (6 : Fr)) := by
  refine ⟨by decide +kernel, by decide +kernel, rfl, by decide +kernel, by decide +kernel, by decide +kernel, ?_⟩
  have h : (setup (F := Fr) toyTape).check (fun x =>
      (authgen asciiCase toyEnv x.1 [['A'], ['B'], ['C']] (toyTape.setFirst ![5, 6, 7, 8, 9, 10])).check fun y => match y.1 with
      | none => false
      | some key =>
        (issue asciiCase toyEnv x.1 [key.2] ⟨['U'], [(0, ['A']), (0, ['B'])]⟩).check fun sk =>
        (issue asciiCase toyEnv x.1 [key.2] ⟨['V'], [(0, ['B']), (0, ['C'])]⟩).check fun sk' =>
        (encrypt asciiCase toyEnv x.1 [key.1] (chars% "\"A\" and (\"B\" and \"C\")") .human [1, 2, 3]
          ((toyTape.setFirst ![0, 3, 4, 5, 6, 7, 8, 9]).setGt 6)).check fun z =>
        decide (Formula.eval toyEnv ⟨fun _ _ => 0, fun i => if i = 3 then 1 else 0⟩
          (View.all [(⟨[], [], []⟩ : View Fr Fr Fr).join (View.all [sk.seen, sk'.seen]), x.1.seen, View.all [key.1.seen],
            z.1.seen]) = 6)) = true := by
    decide +kernel
  rw [Res.check_iff] at h
  obtain ⟨⟨gk, t'⟩, hs, h⟩ := h
  rw [Res.check_iff] at h
  obtain ⟨⟨key?, u⟩, ha, h⟩ := h
  cases key? with
  | none => simp at h
  | some key =>
    simp only [] at h
    rw [Res.check_iff] at h
    obtain ⟨sk, hi, h⟩ := h
    rw [Res.check_iff] at h
    obtain ⟨sk', hi', h⟩ := h
    rw [Res.check_iff] at h
    obtain ⟨⟨ct, v⟩, he, h⟩ := h
    exact ⟨gk, t', [key], [sk, sk'], ct, v, [], hs, .cons ⟨u, ha⟩ .nil, .cons hi (.cons hi' .nil), he, .nil,
      of_decide_eq_true h⟩

end Aw11
end Rabe
