import Verif.Props.Parser
import Verif.Proof.Common
import Verif.Proof.Selection
import Verif.Proof.Privacy
import Verif.Instance.Bn

/-!
# C11–C14: secret sharing and share labels
-/

set_option linter.unusedSectionVars false

namespace Rabe

variable {F : Type} [Field F] [DecidableEq F]

/-- Look up a label in a list of labelled scalars (first match); used to state reconstruction. -/
def lookupLabel (xs : List (Str × F)) (label : Str) : F :=
  match xs.find? fun x => x.1 == label with
  | some x => x.2
  | none => 0

theorem lookup_map {L : List (Str × ℕ)} {f : Str × ℕ → F} {l} (hl : l ∈ L) :
    lookupLabel (L.map fun l => (leafIdx l, f l)) (leafIdx l) = f l := by
  unfold lookupLabel
  rw [find?_map_inj L (fun l => (leafIdx l, f l)) _ l hl fun y _ => by
    simp only [beq_iff_eq]; exact ⟨leafIdx_inj, fun h => h ▸ rfl⟩]

/-- **C11.** Split any secret along any accepted policy (multi-line or not, gates with any number of children), with any
random coefficients. Shares and coefficients are computed leaf by leaf from left to right. The marked leaves of every minimal
authorised selection combine to the secret; and every attribute list that satisfies a policy without empty gates owns such a
selection (and only those do). -/
theorem C11_minimal_sets_reconstruct [BigChar F] (text : Str) (lang : PolicyLanguage) (p : Pol)
    (h : Denotes text lang p) (hl : text.length < 2 ^ 64) (secret : F) (ω : ℕ → F) :
    (∃ shares coeffs ω', genSharesPolicy p.toValue secret none ω = .ok (some shares, ω') ∧
      calcCoefficients p.toValue (some (1 : F)) [] none = .ok (some coeffs) ∧
      shares.map Prod.fst = p.leaves.map (fun l => nodeIndex l.1 l.2) ∧
      coeffs.map Prod.fst = p.leaves.map (fun l => nodeIndex l.1 l.2) ∧
      ∀ bs, p.Sel bs → ((marked bs (coeffs.zip shares)).map fun x => x.1.2 * x.2.2).sum = secret) ∧
    ∀ A : List Str, p.NoEmpty → (p.sat A = true ↔ ∃ bs, p.Sel bs ∧ ∀ l ∈ marked bs p.leaves, l.1 ∈ A) := by
  have hf : p.Fits := by
    obtain ⟨q, hq, hf, _⟩ := parse_ok h
    rw [toValue_inj _ _ hq]; exact hf hl
  refine ⟨⟨_, _, _, genSharesPolicy_eq p secret ω, calcCoefficients_eq p 1 [], ?_, ?_, ?_⟩, fun A hn =>
    ⟨sat_sel A p hn, fun ⟨bs, h1, h2⟩ => sel_sat A p bs h1 h2⟩⟩
  · rw [shares, List.map_fst_zip (by simp [shareVals_length])]
    rfl
  · rw [List.nil_append, coeffs, List.map_fst_zip (by simp [coeffVals_length])]
    rfl
  · intro bs hb
    rw [List.nil_append]
    have := sel_reconstruct p hf bs hb 1 secret ω
    rw [one_mul, selDot] at this
    refine Eq.trans ?_ this
    rw [shares, coeffs]
    have e : ∀ (ls : List Str) (cs ss : List F) (bs : List Bool), cs.length = ls.length → ss.length = ls.length →
        (marked bs ((ls.zip cs).zip (ls.zip ss))).map (fun x => x.1.2 * x.2.2) =
          (marked bs (cs.zip ss)).map fun x => x.1 * x.2 := by
      intro ls
      induction ls with
      | nil => intro cs ss bs h1 h2; simp at h1 h2; simp [h1, h2, marked]
      | cons l ls ih =>
        intro cs ss bs h1 h2
        match cs, ss, bs with
        | [], _, _ => simp at h1
        | _, [], _ => simp at h2
        | c :: cs, s :: ss, [] => simp [marked]
        | c :: cs, s :: ss, b :: bs =>
          have := ih cs ss bs (by simpa using h1) (by simpa using h2)
          cases b <;> simp [marked] at this ⊢ <;> exact this
    rw [e _ _ _ _ (by simp [coeffVals_length]) (by simp [shareVals_length])]

/-- A multi-line policy with colliding labels and a minimal selection of its second half. -/
example : Denotes (chars% "(\"A\" and \"B\")\nor\n(\"A\" and \"C\")") .human
      (.gate .or [.gate .and [.leaf ['A'] 3, .leaf ['B'] 11], .gate .and [.leaf ['A'] 3, .leaf ['C'] 11]]) ∧
    Pol.Sel (.gate .or [.gate .and [.leaf ['A'] 3, .leaf ['B'] 11], .gate .and [.leaf ['A'] 3, .leaf ['C'] 11]])
      [false, false, true, true] := by
  refine ⟨rfl, [false, false], [true, true], rfl, Or.inr ⟨rfl, [true, true], [], rfl, Or.inl ⟨⟨by simp, ?_⟩, rfl⟩⟩⟩
  exact ⟨[true], [true], rfl, rfl, [true], [], rfl, rfl, rfl⟩

/-- **C11, for the leaves the code prunes to.** If every gate has at least two children, then for a satisfying attribute list
`calc_pruned` returns the marked leaves of a minimal authorised selection; so the shares at those positions combine to the
secret (also when labels collide). -/
theorem C11_pruned_positions_reconstruct [BigChar F] (text : Str) (lang : PolicyLanguage) (p : Pol)
    (h : Denotes text lang p) (hl : text.length < 2 ^ 64) (hw : p.Wide) (A : List Str) (hA : p.sat A = true)
    (secret : F) (ω : ℕ → F) :
    ∃ shares coeffs ω' bs, genSharesPolicy p.toValue secret none ω = .ok (some shares, ω') ∧
      calcCoefficients p.toValue (some (1 : F)) [] none = .ok (some coeffs) ∧ bs.length = p.leaves.length ∧
      calcPruned A p.toValue none = .ok (true, (marked bs p.leaves).map fun l => (l.1, nodeIndex l.1 l.2)) ∧
      (marked bs shares).map Prod.fst = (marked bs p.leaves).map (fun l => nodeIndex l.1 l.2) ∧
      ((marked bs (coeffs.zip shares)).map fun x => x.1.2 * x.2.2).sum = secret := by
  obtain ⟨⟨shares, coeffs, ω', h1, h2, h3, _, h5⟩, _⟩ := C11_minimal_sets_reconstruct text lang p h hl secret ω
  obtain ⟨bs, hb, hm⟩ := pick_sel A p (Pol.Arity.mono (fun _ _ h => by omega) p hw) hA
  refine ⟨shares, coeffs, ω', bs, h1, h2, sel_length p bs hb, ?_, ?_, h5 bs hb⟩
  · rw [hm, calcPruned_eq A p hw, hA]; rfl
  · have e : ∀ (α β : Type) (f : α → β) (bs : List Bool) (xs : List α), (marked bs xs).map f = marked bs (xs.map f) := by
      intro α β f bs
      induction bs with
      | nil => simp [marked]
      | cons b bs ih =>
        intro xs
        cases xs with
        | nil => simp [marked]
        | cons x xs => have := ih xs; cases b <;> simp [marked] at this ⊢ <;> exact this
    rw [e, e, h3]

/-- The policy of the example above, satisfied by `A` and `C`. -/
example : Pol.Wide (.gate .or [.gate .and [.leaf ['A'] 3, .leaf ['B'] 11], .gate .and [.leaf ['A'] 3, .leaf ['C'] 11]]) ∧
    Pol.sat [['A'], ['C']]
      (.gate .or [.gate .and [.leaf ['A'] 3, .leaf ['B'] 11], .gate .and [.leaf ['A'] 3, .leaf ['C'] 11]]) = true := by
  simp [Pol.Wide]

/-- **C11, as the schemes use it, is violated.** They look shares and coefficients up by label. In the policy of `C05_violated`
both leaves named `A` have the same label; the pruned leaves of a satisfying list then combine to something else. -/
theorem C11_violated_multiline : ∃ (p : Pol) (shares coeffs : List (Str × Fr)) (sel : List (Str × Str)) (ω ω' : ℕ → Fr),
    Denotes (chars% "(\"A\" and \"B\")\nor\n(\"A\" and \"C\")") .human p ∧ p.sat [['A'], ['C']] = true ∧
    genSharesPolicy p.toValue (1 : Fr) none ω = .ok (some shares, ω') ∧
    calcCoefficients p.toValue (some (1 : Fr)) [] none = .ok (some coeffs) ∧
    calcPruned [['A'], ['C']] p.toValue none = .ok (true, sel) ∧
    (sel.map fun s => lookupLabel coeffs s.2 * lookupLabel shares s.2).sum ≠ 1 := by
  refine ⟨.gate .or [.gate .and [.leaf ['A'] 3, .leaf ['B'] 11], .gate .and [.leaf ['A'] 3, .leaf ['C'] 11]], _, _, _,
    fun i => (i : Fr), _, rfl, by simp, genSharesPolicy_eq _ _ _, calcCoefficients_eq _ _ _, calcPruned_eq _ _ ?_, ?_⟩
  · simp [Pol.Wide]
  · decide +kernel

/-- **C11 is violated, narrow gates.** The JSON policy "or" with the single child `A` can be shared, but the pruning aborts. -/
theorem C11_violated_narrow : ∃ text p, Denotes text .json p ∧ p.sat [['A']] = true ∧
    (∀ (secret : Fr) ω, ∃ shares ω', genSharesPolicy p.toValue secret none ω = .ok (some shares, ω')) ∧
    calcPruned [['A']] p.toValue none = .panic :=
  ⟨chars% "{\"name\": \"or\", \"children\": [{\"name\": \"A\"}]}", .gate .or [.leaf ['A'] 39], rfl, by simp,
    fun secret ω => ⟨_, _, genSharesPolicy_eq _ secret ω⟩, rfl⟩

/-- **C11, partial: as the schemes use it.** Split any secret along a regular policy (labels pairwise different, gates with at
least two children), with any random coefficients. For every satisfying attribute list, the sum over the pruned leaves of
coefficient times share (both looked up by label) is the secret. (Full claim: for every accepted policy; false, see
`C11_violated_multiline`, `C11_violated_narrow`.) -/
theorem C11_tree_shares_reconstruct_partial [BigChar F] (text : Str) (lang : PolicyLanguage) (p : Pol)
    (h : Regular text lang p) (A : List Str) (hA : p.sat A = true) (secret : F) (ω : ℕ → F) :
    ∃ shares coeffs sel ω', genSharesPolicy p.toValue secret none ω = .ok (some shares, ω') ∧
      calcCoefficients p.toValue (some (1 : F)) [] none = .ok (some coeffs) ∧
      calcPruned A p.toValue none = .ok (true, sel) ∧
      (sel.map fun s => lookupLabel coeffs s.2 * lookupLabel shares s.2).sum = secret := by
  obtain ⟨sh, hsh, hshv⟩ := shares_fun h.labels secret ω
  obtain ⟨cf, hcf, hcfv⟩ := coeffs_fun h.labels (1 : F)
  refine ⟨_, _, _, _, genSharesPolicy_eq p secret ω, calcCoefficients_eq p 1 [],
    hA ▸ calcPruned_eq A p h.wide, ?_⟩
  rw [List.nil_append, hsh, hcf, List.map_map]
  have := reconstruct A sh cf p h.fits hA 1 secret ω hshv hcfv (Wide.reach _ _ h.wide)
  rw [one_mul] at this
  rw [← this]
  congr 1
  refine List.map_congr_left fun l hl => ?_
  have hlp : l ∈ p.leaves := (pick_sublist A p).subset hl
  simp only [Function.comp, leafKey]
  rw [show nodeIndex l.1 l.2 = leafIdx l from rfl, lookup_map hlp, lookup_map hlp]

/-- A regular policy with nested gates and a repeated attribute, and a satisfying list, over the BN254 scalars. -/
example : ∃ p, Regular (chars% "(\"A\" and \"B\" and \"C\") or (\"A\" and \"D\")") .human p ∧
    p.sat [['D'], ['A']] = true ∧ p.sat [['B'], ['A']] = false ∧ BigChar Fr :=
  ⟨.gate .or [.gate .and [.leaf ['A'] 3, .leaf ['B'] 11, .leaf ['C'] 19], .gate .and [.leaf ['A'] 28, .leaf ['D'] 36]],
    ⟨rfl, by simp, by simp [Pol.Wide], by simp⟩, by simp, by simp, inferInstance⟩

/-- **C12.** For attributes that do not satisfy the policy and any difference `d` of secrets there is a translation of
the random coefficients, independent of the secret and of the coefficients, under which every share of a leaf whose
attribute is owned stays the same. Translations are bijections, so uniform randomness gives the same distribution of
visible shares for all secrets. -/
theorem C12_unauthorised_shares_hide_secret [BigChar F] (text : Str) (lang : PolicyLanguage) (p : Pol)
    (h : Denotes text lang p) (hl : text.length < 2 ^ 64) (A : List Str) (hA : p.sat A = false) (d : F) :
    ∃ δ : ℕ → F, ∀ (secret : F) (ω : ℕ → F), ∃ xs ys ω' ω'',
      genSharesPolicy p.toValue secret none ω = .ok (some xs, ω') ∧
      genSharesPolicy p.toValue (secret + d) none (fun i => ω i + δ i) = .ok (some ys, ω'') ∧
      xs.length = p.leaves.length ∧
      ∀ (i : ℕ) (l : Str × ℕ), p.leaves[i]? = some l →
        (xs[i]?.map Prod.fst = some (nodeIndex l.1 l.2)) ∧ (l.1 ∈ A → xs[i]? = ys[i]?) := by
  have hf : p.Fits := by
    obtain ⟨q, hq, hf, _⟩ := parse_ok h
    rw [toValue_inj _ _ hq]; exact hf hl
  obtain ⟨δ, hδ⟩ := hides A p hf hA d
  refine ⟨δ, fun secret ω => ⟨_, _, _, _, genSharesPolicy_eq p secret ω,
    genSharesPolicy_eq p (secret + d) _, ?_, ?_⟩⟩
  · simp [shares, shareVals_length]
  · intro i l hi
    have hlt : i < p.leaves.length := by
      by_contra hc
      rw [List.getElem?_eq_none (by omega)] at hi
      simp at hi
    have e1 : ∀ σ (ω : ℕ → F), (shares p σ ω)[i]? = ((shareVals p σ ω)[i]?).map fun v => (leafIdx l, v) := by
      intro σ ω
      have hv : i < (shareVals p σ ω).length := by rw [shareVals_length]; exact hlt
      simp only [shares, List.zip, List.getElem?_zipWith, List.getElem?_map, hi]
      rw [List.getElem?_eq_getElem hv]
      rfl
    refine ⟨?_, fun hA => ?_⟩
    · have hv : i < (shareVals p secret ω).length := by rw [shareVals_length]; exact hlt
      rw [e1, List.getElem?_eq_getElem hv]
      rfl
    · rw [e1, e1, hδ secret ω i l hi hA]
      rfl

/-- A non-satisfying list that sees two of three shares. -/
example : ∃ p, Denotes (chars% "(\"A\" and \"B\" and \"C\")") .human p ∧ p.sat [['C'], ['A']] = false :=
  ⟨.gate .and [.leaf ['A'] 3, .leaf ['B'] 11, .leaf ['C'] 19], rfl, by simp⟩

/-! ## k-of-n -/

/-- **C13, shape.** For `1 ≤ k ≤ n` there are `n+1` shares and share number 0 is the secret; for `k > n` there are none. -/
theorem C13_shares_shape (secret : F) (k n : ℕ) (ω : ℕ → F) :
    (k ≤ n → (genShares secret k n ω).1.length = n + 1 ∧ (genShares secret k n ω).1[0]? = some secret) ∧
    (n < k → (genShares secret k n ω).1 = []) := by
  refine ⟨fun h => ?_, fun h => by simp [genShares, show ¬ k ≤ n by omega]⟩
  simp only [genShares, h, if_true, List.length_map, List.length_range, true_and]
  rw [List.getElem?_map, List.getElem?_range (by omega)]
  simp

/-- **C13, reconstruction.** Any `k` (or more) different non-zero share numbers combined with the coefficients computed
for them give the secret. -/
theorem C13_k_shares_reconstruct [BigChar F] (secret : F) (k n : ℕ) (hk : 1 ≤ k) (hkn : k ≤ n) (hn : n < 2 ^ 64)
    (ω : ℕ → F) (idx : List ℕ) (hidx : ∀ i ∈ idx, 1 ≤ i ∧ i ≤ n) (hnd : idx.Nodup) (hlen : k ≤ idx.length) :
    (List.zipWith (fun c i => c * ((genShares secret k n ω).1[i]?.getD 0))
      (recoverCoefficients (idx.map fun i : ℕ => (i : F))) idx).sum = secret := by
  have hnd' : (idx.map fun i : ℕ => (i : F)).Nodup := by
    rw [List.nodup_map_iff_inj_on hnd]
    intro x hx y hy hxy
    have := hidx x hx
    have := hidx y hy
    exact natCast_inj_of_lt (by omega) (by omega) hxy
  have h := lagrange_zero _ hnd' (secret :: (List.range (k - 1)).map ω) (by simp; omega)
  rw [polynomial_head_zero] at h
  refine Eq.trans ?_ h
  rw [recoverCoefficients, List.map_map, List.map_map, List.zipWith_map_left]
  congr 1
  have : ∀ (L : List ℕ) (f : ℕ → F) (g : ℕ → F), (∀ i ∈ L, i ≤ n) → (∀ i ≤ n, g i = polynomial
      (secret :: (List.range (k - 1)).map ω) (i : F)) →
      List.zipWith (fun a b => f a * g b) L L = L.map fun i => f i *
        polynomial (secret :: (List.range (k - 1)).map ω) (i : F) := by
    intro L f g hL hg
    induction L with
    | nil => rfl
    | cons x xs ih =>
      simp only [List.zipWith_cons_cons, List.map_cons, ih fun i hi => hL i (by simp [hi]),
        hg x (hL x (by simp))]
  refine this idx (fun i => recoverCoefficient (i : F) (idx.map fun i : ℕ => (i : F)) 1) _
    (fun i hi => (hidx i hi).2) ?_
  intro i hi
  simp only [genShares, hkn, if_true]
  rw [List.getElem?_map, List.getElem?_range (by omega)]
  simp

/-- **C13, privacy.** For fewer than `k` different non-zero share numbers and any difference `d` of secrets there is a
translation of the random coefficients under which these shares stay the same. -/
theorem C13_fewer_shares_hide_secret [BigChar F] (k n : ℕ) (hkn : k ≤ n) (hn : n < 2 ^ 64)
    (idx : List ℕ) (hidx : ∀ i ∈ idx, 1 ≤ i ∧ i ≤ n) (hlen : idx.length < k) (d : F) :
    ∃ δ : ℕ → F, ∀ (secret : F) (ω : ℕ → F), ∀ i ∈ idx,
      (genShares secret k n ω).1[i]? = (genShares (secret + d) k n fun j => ω j + δ j).1[i]? := by
  -- pad the list of points to exactly `k - 1` with copies of a point
  let S : List F := idx.map (fun i : ℕ => (i : F)) ++ List.replicate (k - 1 - idx.length) 1
  have hS : S.length = k - 1 := by simp [S]; omega
  obtain ⟨a, ha⟩ := offset_exists d S (by
    intro x hx
    rcases List.mem_append.1 hx with hx | hx
    · obtain ⟨i, hi, rfl⟩ := List.mem_map.1 hx
      have := hidx i hi
      exact BigChar.cast_ne_zero i (by omega) (by omega)
    · rw [List.mem_replicate] at hx
      rw [hx.2]; exact one_ne_zero)
  refine ⟨a, fun secret ω i hi => ?_⟩
  have h0 := ha (i : F) (List.mem_append.2 (Or.inl (List.mem_map.2 ⟨i, hi, rfl⟩)))
  rw [hS] at h0
  have hin := hidx i hi
  simp only [genShares, hkn, if_true]
  rw [List.getElem?_map, List.getElem?_range (by omega), List.getElem?_map, List.getElem?_range (by omega)]
  simp only [Option.map_some, Option.some.injEq]
  rw [polynomial_add _ ω a _ secret d, h0, add_zero]

/-- Two of three: hypotheses of reconstruction for the numbers 3 and 1, and of privacy for the number 2. -/
example (secret : Fr) (ω : ℕ → Fr) :
    (List.zipWith (fun c i => c * ((genShares secret 2 3 ω).1[i]?.getD 0))
      (recoverCoefficients [((3 : ℕ) : Fr), ((1 : ℕ) : Fr)]) [3, 1]).sum = secret :=
  C13_k_shares_reconstruct secret 2 3 (by omega) (by omega) (by norm_num) ω [3, 1] (by simp) (by simp) (by simp)

example : ∃ δ : ℕ → Fr, ∀ (secret : Fr) (ω : ℕ → Fr), ∀ i ∈ [2],
    (genShares secret 2 3 ω).1[i]? = (genShares (secret + 1) 2 3 fun j => ω j + δ j).1[i]? :=
  C13_fewer_shares_hide_secret 2 3 (by omega) (by norm_num) [2] (by simp) (by simp) 1

/-! ## Labels -/

/-- **C14, injectivity.** A label determines attribute and position. -/
theorem C14_label_injective (a b : Str) (i j : ℕ) (h : nodeIndex a i = nodeIndex b j) : a = b ∧ i = j :=
  nodeIndex_inj h

/-- **C14, stripping, partial.** Stripping the position from a label returns the attribute iff the attribute has no
underscore; in general it returns the part before the first underscore. (Full claim: for all attributes; false, see
`C14_violated`.) -/
theorem C14_strip_partial (a : Str) (i : ℕ) :
    removeIndex (nodeIndex a i) = a.takeWhile (· != '_') ∧ (removeIndex (nodeIndex a i) = a ↔ '_' ∉ a) := by
  refine ⟨removeIndex_nodeIndex_eq a i, fun h => ?_, removeIndex_nodeIndex i⟩
  rw [removeIndex_nodeIndex_eq] at h
  exact takeWhile_ne_self h

/-- **C14 is violated.** Two different attributes have labels that strip to the same attribute. -/
theorem C14_violated : ∃ a b : Str, a ≠ b ∧ ∀ i j, removeIndex (nodeIndex a i) = removeIndex (nodeIndex b j) :=
  ⟨(chars% "A_x"), (chars% "A_y"), by simp, fun i j => by simp [removeIndex_nodeIndex_eq]⟩

example : nodeIndex (chars% "A_1") 2 = (chars% "A_1_2") ∧ nodeIndex (chars% "A") 12 = (chars% "A_12") := ⟨rfl, rfl⟩

end Rabe
