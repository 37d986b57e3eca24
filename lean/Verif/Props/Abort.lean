import Verif.Props.Order
import Verif.Props.Bsw
import Verif.Props.Ghw11
import Verif.Props.Bdabe
import Verif.Props.Mke08

/-!
# C65: decrypting data of unknown origin never aborts the process

For every scheme: an exact condition for `decrypt` to panic, for all keys and ciphertexts and all stored texts (when `parse`
panics: C02; which gates pruning visits: `Reach`); for LSW and YCT14 with an issued key.
-/

set_option linter.unusedSectionVars false

namespace Rabe

variable {F G1 G2 Gt : Type} [Field F] [DecidableEq F] [AddCommGroup G1] [Module F G1]
  [AddCommGroup G2] [Module F G2] [AddCommGroup Gt] [Module F Gt]

omit [DecidableEq F] in
theorem decryptSymmetric_panic (env : Env F G1 G2 Gt) (msg : Gt) (data : Bytes) :
    decryptSymmetric env msg data = .panic ↔ data.length < 12 := by
  by_cases h : data.length < 12
  · simp [decryptSymmetric, h]
  · simp only [decryptSymmetric, h, if_false, iff_false]
    split <;> simp

theorem not_mem_strip (n : Str) : '_' ∉ n.takeWhile (· != '_') := by
  induction n with
  | nil => simp
  | cons c cs ih =>
    rw [List.takeWhile_cons]
    split
    · rename_i h
      simp only [bne_iff_ne, ne_eq] at h
      simp only [List.mem_cons, not_or]
      exact ⟨fun e => h e.symm, ih⟩
    · simp

/-- A loop whose body panics on the bad elements and succeeds on the others. -/
theorem foldR_panic {α β : Type} {f : β → α → Res β} {bad : α → Prop} {xs : List α}
    (h : ∀ x ∈ xs, (bad x ∧ ∀ acc, f acc x = .panic) ∨ (¬ bad x ∧ ∀ acc, ∃ y, f acc x = .ok y)) :
    ∀ acc, ((∃ x ∈ xs, bad x) ∧ Res.foldR f acc xs = .panic) ∨
      ((¬ ∃ x ∈ xs, bad x) ∧ ∃ y, Res.foldR f acc xs = .ok y) := by
  induction xs with
  | nil => intro acc; exact Or.inr ⟨by simp, acc, rfl⟩
  | cons x xs ih =>
    intro acc
    rcases h x (by simp) with ⟨hb, hx⟩ | ⟨hb, hx⟩
    · exact Or.inl ⟨⟨x, by simp, hb⟩, by simp [Res.foldR, Res.rbind_eq, hx]⟩
    · obtain ⟨y, hy⟩ := hx acc
      simp only [Res.foldR, Res.rbind_eq, hy, Res.ok_bind]
      rcases ih (fun z hz => h z (by simp [hz])) y with ⟨⟨z, hz, hbz⟩, h2⟩ | ⟨h1, h2⟩
      · exact Or.inl ⟨⟨z, by simp [hz], hbz⟩, h2⟩
      · refine Or.inr ⟨?_, h2⟩
        rintro ⟨z, hz, hbz⟩
        rcases List.mem_cons.1 hz with rfl | hz
        · exact hb hbz
        · exact h1 ⟨z, hz, hbz⟩

theorem coeffs_find {p : Pol} {l : Str × ℕ} (hl : l ∈ p.leaves) :
    ∃ c, (coeffs p (1 : F)).find? (fun c => c.1 == leafIdx l) = some c := by
  obtain ⟨x, _, hx, _⟩ := exists_find? (fun c : Str × F => c.1) (coeffs p (1 : F)) (leafIdx l) (by
    rw [coeffs, List.map_fst_zip (by simp [coeffVals_length])]
    exact List.mem_map.2 ⟨l, hl, rfl⟩)
  exact ⟨x, hx⟩

theorem find?_none_of_not_mem {α : Type} (key : α → Str) (xs : List α) (k : Str) (h : k ∉ xs.map key) :
    xs.find? (fun x => key x == k) = none := by
  rw [List.find?_eq_none]
  intro x hx he
  exact h (List.mem_map.2 ⟨x, hx, by simpa using he⟩)

theorem sat_nil_of_wide : ∀ p : Pol, p.Wide → p.sat [] = false := by
  intro p
  induction p using Pol.ind with
  | hl n c => intro _; simp
  | hg op cs ih =>
    intro hw
    obtain ⟨h2, hw⟩ := hw
    rw [Pol.arityL_iff] at hw
    cases op with
    | and =>
      cases cs with
      | nil => simp at h2
      | cons c cs => simp [ih c (by simp) (hw c (by simp))]
    | or =>
      rw [Pol.sat_or, List.any_eq_false]
      intro c hc
      simp [ih c hc (hw c hc)]

/-- Reading the policy of a ciphertext: refusal for everybody who does not satisfy it. -/
theorem traverse_wide (A : List Str) {p : Pol} (hw : p.Wide) (ty) : traversePolicy A p.toValue ty = p.sat A := by
  by_cases hA : A = []
  · rw [hA, traverse_nil, sat_nil_of_wide p hw]
  · exact traverse_eq_sat A hA p ty

theorem sat_nil_of_reach : ∀ p : Pol, Reach [] p → p.sat [] = false := by
  intro p
  induction p using Pol.ind with
  | hl n c => intro _; simp
  | hg op cs ih =>
    intro hr
    cases op with
    | and =>
      obtain ⟨h2, hr⟩ := hr
      rw [reachAll_iff] at hr
      cases cs with
      | nil => simp at h2
      | cons c cs => simp [ih c (by simp) (hr c (by simp))]
    | or =>
      obtain ⟨-, hr⟩ := hr
      have : ∀ cs : List Pol, (∀ c ∈ cs, Reach [] c → c.sat [] = false) → ReachFirst [] cs → ∀ c ∈ cs, c.sat [] = false := by
        intro cs
        induction cs with
        | nil => simp
        | cons c cs ihc =>
          intro ih hr
          have hc := ih c (by simp) hr.1
          intro d hd
          rcases List.mem_cons.1 hd with rfl | hd
          · exact hc
          · exact ihc (fun e he => ih e (by simp [he])) (hr.2 hc) d hd
      rw [Pol.sat_or, List.any_eq_false]
      intro c hc
      simp [this cs ih hr c hc]

theorem traverse_reach (A : List Str) {p : Pol} (hr : Reach A p) (ty) : traversePolicy A p.toValue ty = p.sat A := by
  by_cases hA : A = []
  · subst hA
    rw [traverse_nil, sat_nil_of_reach p hr]
  · exact traverse_eq_sat A hA p ty

theorem traverse_true (A : List Str) (p : Pol) (ty) : traversePolicy A p.toValue ty = true ↔ A ≠ [] ∧ p.sat A = true := by
  by_cases hA : A = []
  · subst hA
    simp [traverse_nil]
  · simp [traverse_eq_sat A hA p ty, hA]

/-- A function that begins by parsing a text aborts if the parser does, or according to the tree. -/
theorem abort_split {α : Type} {text : Str} {lang : PolicyLanguage} {r : Res α} {Q : Pol → Prop}
    (he : parse text lang = .err → r ≠ .panic) (hpn : parse text lang = .panic → r = .panic)
    (h : ∀ p, Denotes text lang p → (r = .panic ↔ Q p)) :
    r = .panic ↔ parse text lang = .panic ∨ ∃ p, Denotes text lang p ∧ Q p := by
  constructor
  · intro hr
    cases hp : parse text lang with
    | err => exact absurd hr (he hp)
    | panic => exact Or.inl rfl
    | ok v =>
      obtain ⟨p, rfl, _⟩ := parse_ok hp
      exact Or.inr ⟨p, hp, (h p hp).1 hr⟩
  · rintro (hp | ⟨p, hp, hq⟩)
    · exact hpn hp
    · exact (h p hp).2 hq

/-- The policies used in the concrete cases below. -/
theorem denotes_ab : Denotes (chars% "\"A\" or \"B\"") .human (.gate .or [.leaf ['A'] 2, .leaf ['B'] 9]) := rfl

/-- The policies used in the concrete cases below. -/
theorem denotes_a1b :
    Denotes (chars% "\"A_1\" or \"B\"") .human (.gate .or [.leaf ['A', '_', '1'] 2, .leaf ['B'] 11]) := rfl

namespace Bsw

/-- Exact condition if all gates that pruning visits have at least two children. -/
theorem abort_reach (env : Env F G1 G2 Gt) (sk : SecretKey G1 G2) (ct : Ciphertext G1 G2 Gt) (p : Pol)
    (hp : Denotes ct.policy.1 ct.policy.2 p) (hr : Reach (sk.dJ.map (·.string)) p) :
    decrypt env sk ct = .panic ↔ p.sat (sk.dJ.map (·.string)) = true ∧ ct.data.length < 12 := by
  have hp' : parse ct.policy.1 ct.policy.2 = .ok p.toValue := hp
  cases hs : p.sat (sk.dJ.map (·.string)) with
  | false => simp [decrypt, recoverMsg, hp', traverse_reach _ hr, hs]
  | true =>
    simp [decrypt, recoverMsg, hp', traverse_reach _ hr, hs, (calcPruned_reach _ p).1 hr, calcCoefficients_eq,
      decryptSymmetric_panic]

/-- **C65, BSW.** For every key and every ciphertext, of any origin and with any stored text: `decrypt` panics exactly if the
parser does, or the key has attributes, they satisfy the policy, and pruning visits a gate with fewer than two children or
the payload has less than 12 bytes. -/
theorem C65_bsw_abort_iff (env : Env F G1 G2 Gt) (sk : SecretKey G1 G2) (ct : Ciphertext G1 G2 Gt) :
    decrypt env sk ct = .panic ↔ parse ct.policy.1 ct.policy.2 = .panic ∨ ∃ p, Denotes ct.policy.1 ct.policy.2 p ∧
      sk.dJ.map (·.string) ≠ [] ∧ p.sat (sk.dJ.map (·.string)) = true ∧
      (¬ Reach (sk.dJ.map (·.string)) p ∨ ct.data.length < 12) :=
  abort_split (fun h => by simp [decrypt, recoverMsg, h]) (fun h => by simp [decrypt, recoverMsg, h]) fun p hp => by
    by_cases hA : (sk.dJ.map (·.string)) ≠ [] ∧ p.sat (sk.dJ.map (·.string)) = true
    · by_cases hr : Reach (sk.dJ.map (·.string)) p
      · rw [abort_reach env sk ct p hp hr]
        simp [hA, hr]
      · have hp' : parse ct.policy.1 ct.policy.2 = .ok p.toValue := hp
        have ht : traversePolicy (sk.dJ.map (·.string)) p.toValue .leaf = true := (traverse_true _ _ _).2 hA
        simp [decrypt, recoverMsg, hp', ht, (calcPruned_reach _ p).2 hr, hA, hr]
    · have hp' : parse ct.policy.1 ct.policy.2 = .ok p.toValue := hp
      have ht : traversePolicy (sk.dJ.map (·.string)) p.toValue .leaf = false := by
        rw [← Bool.not_eq_true]
        exact fun h => hA ((traverse_true _ _ _).1 h)
      simp only [decrypt, recoverMsg, hp', Res.ok_bind, ht, if_true, Res.err_bind, reduceCtorEq, false_iff]
      exact fun h => hA ⟨h.1, h.2.1⟩

/-- **C65, BSW, partial.** A ciphertext of any origin with a payload of at least 12 bytes and a policy with wide gates
never aborts the decryption. (Full claim: every ciphertext; false, see `C65_violated_bsw`.) -/
theorem C65_bsw_no_abort_partial (env : Env F G1 G2 Gt) (sk : SecretKey G1 G2) (ct : Ciphertext G1 G2 Gt) (p : Pol)
    (hp : Denotes ct.policy.1 ct.policy.2 p) (hw : p.Wide) (hl : 12 ≤ ct.data.length) :
    decrypt env sk ct ≠ .panic := by
  rw [ne_eq, abort_reach env sk ct p hp (Wide.reach _ p hw)]
  omega

/-- **C65 is violated in BSW.** An issued key aborts on a ciphertext with a short payload, with a gate with one child and
with a number in the policy. -/
theorem C65_violated_bsw : ∃ (pk : PublicKey Fr Fr Fr) (msk : MasterKey Fr Fr) (sk : SecretKey Fr Fr)
    (t t' : Tape Fr Fr Fr Fr), setup toyEnv toyTape = .ok ((pk, msk), t) ∧
    keygen toyEnv pk msk [['A']] toyTape = .ok (some sk, t') ∧
    decrypt toyEnv sk ⟨(chars% "\"A\" or \"B\"", .human), 0, 0, [], [1, 2]⟩ = .panic ∧
    decrypt toyEnv sk ⟨(chars% "{\"name\": \"or\", \"children\": [{\"name\": \"A\"}]}", .json), 0, 0, [],
      List.replicate 12 0⟩ = .panic ∧
    decrypt toyEnv sk ⟨(chars% "5", .human), 0, 0, [], List.replicate 12 0⟩ = .panic := by
  have h : (do
    let x ← setup toyEnv toyTape
    let y ← keygen toyEnv x.1.1 x.1.2 [['A']] toyTape
    let sk ← Res.unwrapOption y.1
    .ok (decrypt toyEnv sk ⟨(chars% "\"A\" or \"B\"", .human), 0, 0, [], [1, 2]⟩,
      decrypt toyEnv sk ⟨(chars% "{\"name\": \"or\", \"children\": [{\"name\": \"A\"}]}", .json), 0, 0, [],
        List.replicate 12 0⟩,
      decrypt toyEnv sk ⟨(chars% "5", .human), 0, 0, [], List.replicate 12 0⟩) : Res (Res Bytes × Res Bytes × Res Bytes)) =
      .ok (.panic, .panic, .panic) := by decide +kernel
  simp only [Res.bind_eq_ok, Res.ok.injEq, Prod.mk.injEq] at h
  obtain ⟨⟨⟨pk, msk⟩, t1⟩, h1, ⟨o, t2⟩, h2, sk, h3, h4⟩ := h
  cases o with
  | none => simp at h3
  | some sk' =>
    obtain rfl := Res.ok.inj h3
    exact ⟨pk, msk, sk', t1, t2, h1, h2, h4⟩

/-- A policy and payload meeting the hypotheses of `C65_bsw_no_abort_partial`; the key satisfies the policy. -/
example (x y z : Fr) : let sk : SecretKey Fr Fr := ⟨x, [⟨['A'], y, z⟩]⟩
    ∃ p, Denotes (chars% "\"A\" or \"B\"") .human p ∧ p.Wide ∧ p.sat (sk.dJ.map (·.string)) = true ∧
      12 ≤ (List.replicate 12 (0 : UInt8)).length :=
  ⟨.gate .or [.leaf ['A'] 2, .leaf ['B'] 9], rfl, by simp [Pol.Wide], by simp, by simp⟩

set_option maxRecDepth 8000 in
/-- A gate with one child: behind a satisfied child of an OR it is not visited, in front of it it is. -/
example : ∃ p q : Pol,
    Denotes (chars% "{\"name\":\"or\",\"children\":[{\"name\":\"A\"},{\"name\":\"and\",\"children\":[{\"name\":\"B\"}]}]}")
      .json p ∧ ¬ p.Wide ∧ Reach [['A']] p ∧ p.sat [['A']] = true ∧
    Denotes (chars% "{\"name\":\"or\",\"children\":[{\"name\":\"and\",\"children\":[{\"name\":\"B\"}]},{\"name\":\"A\"}]}")
      .json q ∧ ¬ Reach [['A']] q ∧ q.sat [['A']] = true :=
  ⟨.gate .or [.leaf ['A'] 35, .gate .and [.leaf ['B'] 74]], .gate .or [.gate .and [.leaf ['B'] 61], .leaf ['A'] 76],
    by with_unfolding_all rfl, by simp [Pol.Wide], by simp [Reach, ReachFirst], by simp, by with_unfolding_all rfl,
    by simp [Reach, ReachFirst], by simp⟩

end Bsw

namespace Ghw11

/-- Exact condition if all gates that pruning visits have at least two children. -/
theorem abort_reach (env : Env F G1 G2 Gt) (tk : TransformKey G2) (ct : Ciphertext G1 Gt) (p : Pol)
    (hp : Denotes ct.policy.1 ct.policy.2 p) (hr : Reach (tk.attrKeyZ.map (·.string)) p) :
    transform env ct tk = .panic ↔ p.sat (tk.attrKeyZ.map (·.string)) = true ∧
      ∃ l ∈ pick (tk.attrKeyZ.map (·.string)) p, nodeIndex l.1 l.2 ∉ ct.ciDi.map (·.1) := by
  have hp' : parse ct.policy.1 ct.policy.2 = .ok p.toValue := hp
  cases hs : p.sat (tk.attrKeyZ.map (·.string)) with
  | false => simp [transform, hp', traverse_reach _ hr, hs]
  | true =>
    have hstep : ∀ x ∈ (pick (tk.attrKeyZ.map (·.string)) p).map leafKey,
        (x.2 ∉ ct.ciDi.map (·.1) ∧ ∀ acc, transformStep env ct tk (coeffs p 1) acc x = .panic) ∨
        (¬ x.2 ∉ ct.ciDi.map (·.1) ∧ ∀ acc, ∃ y, transformStep env ct tk (coeffs p 1) acc x = .ok y) := by
      intro x hx
      obtain ⟨l, hl, rfl⟩ := List.mem_map.1 hx
      obtain ⟨c, hc⟩ := coeffs_find (F := F) ((pick_sublist _ p).subset hl)
      obtain ⟨a, _, ha, _⟩ := exists_find? (fun a : Attribute G2 => a.string) tk.attrKeyZ l.1 (pick_owned _ p l hl)
      have hk : leafKey l = (l.1, leafIdx l) := rfl
      by_cases hm : leafIdx l ∈ ct.ciDi.map (·.1)
      · obtain ⟨b, _, hb, _⟩ := exists_find? (fun a : Str × G1 × G1 => a.1) ct.ciDi (leafIdx l) hm
        exact Or.inr ⟨by simpa [hk] using hm, fun acc => by simp [transformStep, hk, hc, ha, hb]⟩
      · have hb := find?_none_of_not_mem (fun a : Str × G1 × G1 => a.1) ct.ciDi (leafIdx l) hm
        exact Or.inl ⟨hm, fun acc => by simp [transformStep, hk, hc, ha, hb]⟩
    simp only [transform, hp', Res.ok_bind, traverse_reach _ hr, hs, Bool.true_eq_false, if_false,
      (calcPruned_reach _ p).1 hr, calcCoefficients_eq, List.nil_append, Res.unwrapOption_some, if_true, true_and]
    rcases foldR_panic hstep (0, 0) with ⟨⟨x, hx, hb⟩, h2⟩ | ⟨h1, y, h2⟩
    · obtain ⟨l, hl, rfl⟩ := List.mem_map.1 hx
      simp only [h2, Res.panic_bind, true_iff]
      exact ⟨l, hl, hb⟩
    · simp only [h2, Res.ok_bind, reduceCtorEq, false_iff]
      rintro ⟨l, hl, hb⟩
      exact h1 ⟨leafKey l, List.mem_map.2 ⟨l, hl, rfl⟩, hb⟩

/-- **C65, GHW11.** For every transformation key and every ciphertext, with any stored text: `transform` panics exactly if the
parser does, or the key has attributes, they satisfy the policy, and pruning visits a gate with fewer than two children or
the ciphertext has no component for one of the leaves used. -/
theorem C65_ghw11_abort_iff (env : Env F G1 G2 Gt) (tk : TransformKey G2) (ct : Ciphertext G1 Gt) :
    transform env ct tk = .panic ↔ parse ct.policy.1 ct.policy.2 = .panic ∨ ∃ p, Denotes ct.policy.1 ct.policy.2 p ∧
      tk.attrKeyZ.map (·.string) ≠ [] ∧ p.sat (tk.attrKeyZ.map (·.string)) = true ∧
      (¬ Reach (tk.attrKeyZ.map (·.string)) p ∨
        ∃ l ∈ pick (tk.attrKeyZ.map (·.string)) p, nodeIndex l.1 l.2 ∉ ct.ciDi.map (·.1)) :=
  abort_split (fun h => by simp [transform, h]) (fun h => by simp [transform, h]) fun p hp => by
    by_cases hA : (tk.attrKeyZ.map (·.string)) ≠ [] ∧ p.sat (tk.attrKeyZ.map (·.string)) = true
    · by_cases hr : Reach (tk.attrKeyZ.map (·.string)) p
      · rw [abort_reach env tk ct p hp hr]
        simp [hA, hr]
      · have hp' : parse ct.policy.1 ct.policy.2 = .ok p.toValue := hp
        have ht : traversePolicy (tk.attrKeyZ.map (·.string)) p.toValue .leaf = true := (traverse_true _ _ _).2 hA
        simp [transform, hp', ht, (calcPruned_reach _ p).2 hr, hA, hr]
    · have hp' : parse ct.policy.1 ct.policy.2 = .ok p.toValue := hp
      have ht : traversePolicy (tk.attrKeyZ.map (·.string)) p.toValue .leaf = false := by
        rw [← Bool.not_eq_true]
        exact fun h => hA ((traverse_true _ _ _).1 h)
      simp only [transform, hp', Res.ok_bind, ht, if_true, reduceCtorEq, false_iff]
      exact fun h => hA ⟨h.1, h.2.1⟩

/-- **C65, GHW11, last step.** `decrypt_out` panics exactly if the payload has less than 12 bytes. -/
theorem C65_ghw11_out_abort_iff (env : Env F G1 G2 Gt) (pct : TransformCiphertext Gt) (rk : RetrieveKey F) (data : Bytes) :
    decryptOut env pct rk data = .panic ↔ data.length < 12 := decryptSymmetric_panic _ _ _

/-- **C65, GHW11, partial.** A ciphertext of any origin with a component for every leaf of its policy (wide gates) never
aborts the transformation. (Full claim: every ciphertext; false, see `C65_violated_ghw11`.) -/
theorem C65_ghw11_no_abort_partial (env : Env F G1 G2 Gt) (tk : TransformKey G2) (ct : Ciphertext G1 Gt) (p : Pol)
    (hp : Denotes ct.policy.1 ct.policy.2 p) (hw : p.Wide)
    (hc : ∀ l ∈ p.leaves, nodeIndex l.1 l.2 ∈ ct.ciDi.map (·.1)) : transform env ct tk ≠ .panic := by
  rw [ne_eq, abort_reach env tk ct p hp (Wide.reach _ p hw)]
  rintro ⟨_, l, hl, h⟩
  exact h (hc l ((pick_sublist _ p).subset hl))

/-- **C65 is violated in GHW11.** For every transformation key with the attribute `A` (whatever its values) there is a
ciphertext that aborts the transformation. -/
theorem C65_violated_ghw11 (env : Env F G1 G2 Gt) (tk : TransformKey G2) (ha : ['A'] ∈ tk.attrKeyZ.map (·.string)) :
    transform env ⟨(chars% "\"A\" or \"B\"", .human), 0, 0, [], []⟩ tk = .panic := by
  refine (abort_reach env tk _ (.gate .or [.leaf ['A'] 2, .leaf ['B'] 9]) denotes_ab (Wide.reach _ _ (by simp [Pol.Wide]))).2 ?_
  have hs : Pol.sat (tk.attrKeyZ.map (·.string)) (.leaf ['A'] 2) = true := by simpa using ha
  refine ⟨by simpa using Or.inl ha, (['A'], 2), ?_, by simp⟩
  simp only [pick, pickFirst, hs, if_true]
  simp [ha]

/-- A ciphertext meeting the hypotheses of `C65_ghw11_no_abort_partial`. -/
example : ∃ p, Denotes (chars% "\"A\" or \"B\"") .human p ∧ p.Wide ∧
    ∀ l ∈ p.leaves, nodeIndex l.1 l.2 ∈ ([(chars% "A_2", 1, 1), (chars% "B_9", 1, 1)] : List (Str × Fr × Fr)).map (·.1) :=
  ⟨.gate .or [.leaf ['A'] 2, .leaf ['B'] 9], rfl, by simp [Pol.Wide], by simp; decide +kernel⟩

end Ghw11

namespace Aw11

/-- Exact condition if all gates that pruning visits have at least two children. -/
theorem abort_reach (env : Env F G1 G2 Gt) (gk : GlobalKey G1 G2) (sk : SecretKey G1) (ct : Ciphertext G2 Gt)
    (p : Pol) (hp : Denotes ct.policy.1 ct.policy.2 p) (hr : Reach (sk.attr.map (·.1)) p) :
    decrypt env gk sk ct = .panic ↔ p.sat (sk.attr.map (·.1)) = true ∧
      ((∃ l ∈ pick (sk.attr.map (·.1)) p, nodeIndex l.1 l.2 ∉ ct.c.map (·.name)) ∨ ct.ct.length < 12) := by
  have hp' : parse ct.policy.1 ct.policy.2 = .ok p.toValue := hp
  cases hs : p.sat (sk.attr.map (·.1)) with
  | false => simp [decrypt, hp', traverse_reach _ hr, hs]
  | true =>
    have hstep : ∀ x ∈ (pick (sk.attr.map (·.1)) p).map leafKey,
        (x.2 ∉ ct.c.map (·.name) ∧
          ∀ acc, decryptStep env (env.sha3Hash gk.g1 sk.gid) sk ct (coeffs p 1) acc x = .panic) ∨
        (¬ x.2 ∉ ct.c.map (·.name) ∧
          ∀ acc, ∃ y, decryptStep env (env.sha3Hash gk.g1 sk.gid) sk ct (coeffs p 1) acc x = .ok y) := by
      intro x hx
      obtain ⟨l, hl, rfl⟩ := List.mem_map.1 hx
      obtain ⟨c, hc⟩ := coeffs_find (F := F) ((pick_sublist _ p).subset hl)
      obtain ⟨a, _, ha, _⟩ := exists_find? (fun a : Str × G1 => a.1) sk.attr l.1 (pick_owned _ p l hl)
      have hk : leafKey l = (l.1, leafIdx l) := rfl
      by_cases hm : leafIdx l ∈ ct.c.map (·.name)
      · obtain ⟨b, _, hb, _⟩ := exists_find? (fun a : CtAttr G2 Gt => a.name) ct.c (leafIdx l) hm
        exact Or.inr ⟨by simpa [hk] using hm, fun acc => by simp [decryptStep, hk, hc, ha, hb]⟩
      · have hb := find?_none_of_not_mem (fun a : CtAttr G2 Gt => a.name) ct.c (leafIdx l) hm
        exact Or.inl ⟨hm, fun acc => by simp [decryptStep, hk, ha, hb]⟩
    simp only [decrypt, hp', Res.ok_bind, traverse_reach _ hr, hs, Bool.true_eq_false, if_false,
      (calcPruned_reach _ p).1 hr, calcCoefficients_eq, List.nil_append, Res.unwrapOption_some, if_true, true_and]
    rcases foldR_panic hstep 0 with ⟨⟨x, hx, hb⟩, h2⟩ | ⟨h1, y, h2⟩
    · obtain ⟨l, hl, rfl⟩ := List.mem_map.1 hx
      simp only [h2, Res.panic_bind, true_iff]
      exact Or.inl ⟨l, hl, hb⟩
    · simp only [h2, Res.ok_bind, decryptSymmetric_panic]
      refine ⟨Or.inr, fun h => h.resolve_left ?_⟩
      rintro ⟨l, hl, hb⟩
      exact h1 ⟨leafKey l, List.mem_map.2 ⟨l, hl, rfl⟩, hb⟩

/-- **C65, AW11.** For every key and every ciphertext, with any stored text: `decrypt` panics exactly if the parser does, or the
key has attributes, they satisfy the policy, and pruning visits a gate with fewer than two children, the ciphertext has no
component for one of the leaves used or a payload of less than 12 bytes. -/
theorem C65_aw11_abort_iff (env : Env F G1 G2 Gt) (gk : GlobalKey G1 G2) (sk : SecretKey G1) (ct : Ciphertext G2 Gt) :
    decrypt env gk sk ct = .panic ↔ parse ct.policy.1 ct.policy.2 = .panic ∨ ∃ p, Denotes ct.policy.1 ct.policy.2 p ∧
      sk.attr.map (·.1) ≠ [] ∧ p.sat (sk.attr.map (·.1)) = true ∧ (¬ Reach (sk.attr.map (·.1)) p ∨
        (∃ l ∈ pick (sk.attr.map (·.1)) p, nodeIndex l.1 l.2 ∉ ct.c.map (·.name)) ∨ ct.ct.length < 12) :=
  abort_split (fun h => by simp [decrypt, h]) (fun h => by simp [decrypt, h]) fun p hp => by
    by_cases hA : (sk.attr.map (·.1)) ≠ [] ∧ p.sat (sk.attr.map (·.1)) = true
    · by_cases hr : Reach (sk.attr.map (·.1)) p
      · rw [abort_reach env gk sk ct p hp hr]
        simp [hA, hr]
      · have hp' : parse ct.policy.1 ct.policy.2 = .ok p.toValue := hp
        have ht : traversePolicy (sk.attr.map (·.1)) p.toValue .leaf = true := (traverse_true _ _ _).2 hA
        simp [decrypt, hp', ht, (calcPruned_reach _ p).2 hr, hA, hr]
    · have hp' : parse ct.policy.1 ct.policy.2 = .ok p.toValue := hp
      have ht : traversePolicy (sk.attr.map (·.1)) p.toValue .leaf = false := by
        rw [← Bool.not_eq_true]
        exact fun h => hA ((traverse_true _ _ _).1 h)
      simp only [decrypt, hp', Res.ok_bind, ht, if_true, reduceCtorEq, false_iff]
      exact fun h => hA ⟨h.1, h.2.1⟩

/-- **C65, AW11, partial.** A ciphertext of any origin with a component for every leaf of its policy (wide gates) and a
payload of at least 12 bytes never aborts the decryption. (Full claim: every ciphertext; false, see
`C65_violated_aw11`.) -/
theorem C65_aw11_no_abort_partial (env : Env F G1 G2 Gt) (gk : GlobalKey G1 G2) (sk : SecretKey G1)
    (ct : Ciphertext G2 Gt) (p : Pol) (hp : Denotes ct.policy.1 ct.policy.2 p) (hw : p.Wide)
    (hc : ∀ l ∈ p.leaves, nodeIndex l.1 l.2 ∈ ct.c.map (·.name)) (hl : 12 ≤ ct.ct.length) :
    decrypt env gk sk ct ≠ .panic := by
  rw [ne_eq, abort_reach env gk sk ct p hp (Wide.reach _ p hw)]
  rintro ⟨_, ⟨l, hl, h⟩ | h⟩
  · exact h (hc l ((pick_sublist _ p).subset hl))
  · omega

/-- **C65 is violated in AW11.** For every key with the attribute `A` (whatever its values) there is a ciphertext with a
payload of 12 bytes that aborts the decryption. -/
theorem C65_violated_aw11 (env : Env F G1 G2 Gt) (gk : GlobalKey G1 G2) (sk : SecretKey G1)
    (ha : ['A'] ∈ sk.attr.map (·.1)) :
    decrypt env gk sk ⟨(chars% "\"A\" or \"B\"", .human), 0, [], List.replicate 12 0⟩ = .panic := by
  refine (abort_reach env gk sk _ (.gate .or [.leaf ['A'] 2, .leaf ['B'] 9]) denotes_ab (Wide.reach _ _ (by simp [Pol.Wide]))).2 ?_
  have hs : Pol.sat (sk.attr.map (·.1)) (.leaf ['A'] 2) = true := by simpa using ha
  refine ⟨by simpa using Or.inl ha, Or.inl ⟨(['A'], 2), ?_, by simp⟩⟩
  simp only [pick, pickFirst, hs, if_true]
  simp [ha]

/-- A ciphertext meeting the hypotheses of `C65_aw11_no_abort_partial`, and a key meeting that of `C65_violated_aw11`. -/
example : (∃ p, Denotes (chars% "\"A\" or \"B\"") .human p ∧ p.Wide ∧ ∀ l ∈ p.leaves, nodeIndex l.1 l.2 ∈
      ([⟨chars% "A_2", 1, 1, 1⟩, ⟨chars% "B_9", 1, 1, 1⟩] : List (CtAttr Fr Fr)).map (·.name)) ∧
    ['A'] ∈ (⟨['U'], [(['A'], 5)]⟩ : SecretKey Fr).attr.map (·.1) :=
  ⟨⟨.gate .or [.leaf ['A'] 2, .leaf ['B'] 9], rfl, by simp [Pol.Wide], by simp; decide +kernel⟩, by simp⟩

end Aw11

namespace Ac17

/-- Every entry for one of the names has at least three group elements. -/
def Full (entries : List (Str × List G1)) (names : List Str) : Prop :=
  ∀ e ∈ entries, e.1 ∈ names → 3 ≤ e.2.length

theorem matchSum_panic (entries : List (Str × List G1)) (i : ℕ) (name : Str) (acc : G1) :
    ((∃ e ∈ entries, e.1 = name ∧ e.2.length ≤ i) ∧ matchSum entries i acc name = .panic) ∨
      ((¬ ∃ e ∈ entries, e.1 = name ∧ e.2.length ≤ i) ∧ ∃ y, matchSum entries i acc name = .ok y) := by
  apply foldR_panic
  intro e _
  by_cases hn : e.1 = name
  · by_cases hl : e.2.length ≤ i
    · exact Or.inl ⟨⟨hn, hl⟩, fun acc => by simp [hn, Res.index, List.getElem?_eq_none hl]⟩
    · refine Or.inr ⟨fun h => hl h.2, fun acc => ?_⟩
      simp [hn, Res.index, List.getElem?_eq_getElem (show i < e.2.length by omega)]
  · exact Or.inr ⟨fun h => hn h.1, fun acc => ⟨acc, by simp [hn]⟩⟩

theorem listSum_panic (entries : List (Str × List G1)) (i : ℕ) (list : List (Str × Str)) :
    ((∃ x ∈ list, ∃ e ∈ entries, e.1 = x.1 ∧ e.2.length ≤ i) ∧ listSum entries i list = .panic) ∨
      ((¬ ∃ x ∈ list, ∃ e ∈ entries, e.1 = x.1 ∧ e.2.length ≤ i) ∧ ∃ y, listSum entries i list = .ok y) := by
  apply foldR_panic
  intro x _
  by_cases hb : ∃ e ∈ entries, e.1 = x.1 ∧ e.2.length ≤ i
  · refine Or.inl ⟨hb, fun acc => ?_⟩
    rcases matchSum_panic entries i x.1 acc with h | h
    · exact h.2
    · exact absurd hb h.1
  · refine Or.inr ⟨hb, fun acc => ?_⟩
    rcases matchSum_panic entries i x.1 acc with h | h
    · exact absurd h.1 hb
    · exact h.2

theorem index_panic {α : Type} (xs : List α) (i : ℕ) :
    (xs.length ≤ i ∧ Res.index xs i = .panic) ∨ (¬ xs.length ≤ i ∧ ∃ y, Res.index xs i = .ok y) := by
  by_cases h : xs.length ≤ i
  · exact Or.inl ⟨h, by simp [Res.index, List.getElem?_eq_none h]⟩
  · exact Or.inr ⟨h, by simp [Res.index, List.getElem?_eq_getElem (show i < xs.length by omega)]⟩

/-- The bodies of both decryption loops panic exactly on missing components. -/
theorem loop_panic {sk : SecretKey G1 G2} {ct : Ciphertext G1 G2 Gt} {list : List (Str × Str)}
    {step : Gt × Gt → ℕ → Res (Gt × Gt)} {lim : ℕ → Prop} (hlim : ∀ i, i ≤ 2 → lim i → lim 2)
    (hstep : ∀ i ≤ 2, ∀ acc, ((lim i ∨ (∃ x ∈ list, ∃ e ∈ ct.c ++ sk.k, e.1 = x.1 ∧ e.2.length ≤ i)) ∧ step acc i = .panic) ∨
      (¬ (lim i ∨ ∃ x ∈ list, ∃ e ∈ ct.c ++ sk.k, e.1 = x.1 ∧ e.2.length ≤ i) ∧ ∃ y, step acc i = .ok y)) (acc) :
    ((lim 2 ∨ ¬ Full (ct.c ++ sk.k) (list.map (·.1))) ∧ Res.foldR step acc [0, 1, 2] = .panic) ∨
      (¬ (lim 2 ∨ ¬ Full (ct.c ++ sk.k) (list.map (·.1))) ∧ ∃ y, Res.foldR step acc [0, 1, 2] = .ok y) := by
  have hfull : (¬ Full (ct.c ++ sk.k) (list.map (·.1))) ↔
      ∃ x ∈ list, ∃ e ∈ ct.c ++ sk.k, e.1 = x.1 ∧ e.2.length ≤ 2 := by
    simp only [Full, not_forall, not_le, List.mem_map]
    constructor
    · rintro ⟨e, he, ⟨x, hx, h1⟩, h2⟩
      exact ⟨x, hx, e, he, h1.symm, by omega⟩
    · rintro ⟨x, hx, e, he, h1, h2⟩
      exact ⟨e, he, ⟨x, hx, h1.symm⟩, by omega⟩
  rw [hfull]
  have key := foldR_panic (f := step) (xs := [0, 1, 2])
    (bad := fun i => lim i ∨ ∃ x ∈ list, ∃ e ∈ ct.c ++ sk.k, e.1 = x.1 ∧ e.2.length ≤ i) (by
      intro i hi
      have hi2 : i ≤ 2 := by
        simp only [List.mem_cons, List.not_mem_nil, or_false] at hi
        omega
      by_cases hb : lim i ∨ ∃ x ∈ list, ∃ e ∈ ct.c ++ sk.k, e.1 = x.1 ∧ e.2.length ≤ i
      · exact Or.inl ⟨hb, fun acc => ((hstep i hi2 acc).resolve_right fun h => h.1 hb).2⟩
      · exact Or.inr ⟨hb, fun acc => ((hstep i hi2 acc).resolve_left fun h => hb h.1).2⟩) acc
  rcases key with ⟨⟨i, hi, hb⟩, h2⟩ | ⟨h1, h2⟩
  · have hi2 : i ≤ 2 := by
      simp only [List.mem_cons, List.not_mem_nil, or_false] at hi
      omega
    refine Or.inl ⟨?_, h2⟩
    rcases hb with hb | ⟨x, hx, e, he, h3, h4⟩
    · exact Or.inl (hlim i hi2 hb)
    · exact Or.inr ⟨x, hx, e, he, h3, by omega⟩
  · exact Or.inr ⟨fun hb => h1 ⟨2, by simp, hb⟩, h2⟩

theorem mem_append_bad {A B : List (Str × List G1)} {list : List (Str × Str)} {i : ℕ} :
    (∃ x ∈ list, ∃ e ∈ A ++ B, e.1 = x.1 ∧ e.2.length ≤ i) ↔
      (∃ x ∈ list, ∃ e ∈ A, e.1 = x.1 ∧ e.2.length ≤ i) ∨ ∃ x ∈ list, ∃ e ∈ B, e.1 = x.1 ∧ e.2.length ≤ i := by
  simp only [List.mem_append, or_and_right, exists_or, and_or_left]

/-- Exact condition if all gates that pruning visits have at least two children. -/
theorem cp_abort_reach (env : Env F G1 G2 Gt) (sk : CpSecretKey G1 G2) (ct : CpCiphertext G1 G2 Gt) (p : Pol)
    (hp : Denotes ct.policy.1 ct.policy.2 p) (hr : Reach sk.attr p) :
    cpDecrypt env sk ct = .panic ↔ p.sat sk.attr = true ∧
      ((sk.sk.kP.length < 3 ∨ sk.sk.k0.length < 3 ∨ ct.ct.c0.length < 3 ∨
        ¬ Full (ct.ct.c ++ sk.sk.k) ((pick sk.attr p).map (·.1))) ∨ ct.ct.ct.length < 12) := by
  have hp' : parse ct.policy.1 ct.policy.2 = .ok p.toValue := hp
  cases hs : p.sat sk.attr with
  | false => simp [cpDecrypt, cpRecover, hp', traverse_reach _ hr, hs]
  | true =>
    have key := loop_panic (sk := sk.sk) (ct := ct.ct) (list := (pick sk.attr p).map leafKey)
      (step := cpDecStep env sk.sk ct.ct ((pick sk.attr p).map leafKey))
      (lim := fun i => sk.sk.kP.length ≤ i ∨ sk.sk.k0.length ≤ i ∨ ct.ct.c0.length ≤ i)
      (by intro i hi h; omega) (by
        intro i _ acc
        rw [mem_append_bad]
        simp only [cpDecStep]
        rcases listSum_panic ct.ct.c i ((pick sk.attr p).map leafKey) with ⟨b1, e1⟩ | ⟨b1, y1, e1⟩
        · exact Or.inl ⟨Or.inr (Or.inl b1), by simp [e1]⟩
        rcases listSum_panic sk.sk.k i ((pick sk.attr p).map leafKey) with ⟨b2, e2⟩ | ⟨b2, y2, e2⟩
        · exact Or.inl ⟨Or.inr (Or.inr b2), by simp [e1, e2]⟩
        rcases index_panic sk.sk.kP i with ⟨b3, e3⟩ | ⟨b3, y3, e3⟩
        · exact Or.inl ⟨Or.inl (Or.inl b3), by simp [e1, e2, e3]⟩
        rcases index_panic ct.ct.c0 i with ⟨b4, e4⟩ | ⟨b4, y4, e4⟩
        · exact Or.inl ⟨Or.inl (Or.inr (Or.inr b4)), by simp [e1, e2, e3, e4]⟩
        rcases index_panic sk.sk.k0 i with ⟨b5, e5⟩ | ⟨b5, y5, e5⟩
        · exact Or.inl ⟨Or.inl (Or.inr (Or.inl b5)), by simp [e1, e2, e3, e4, e5]⟩
        · exact Or.inr ⟨by rintro ((h | h | h) | h | h) <;> contradiction, by simp [e1, e2, e3, e4, e5]⟩) (0, 0)
    have hnames : ((pick sk.attr p).map leafKey).map (·.1) = (pick sk.attr p).map (·.1) := by
      rw [List.map_map]; rfl
    rw [hnames] at key
    simp only [cpDecrypt, cpRecover, hp', Res.ok_bind, traverse_reach _ hr, hs, Bool.true_eq_false, if_false,
      (calcPruned_reach _ p).1 hr, if_true, true_and]
    rcases key with ⟨hb, h2⟩ | ⟨hb, y, h2⟩
    · simp only [h2, Res.panic_bind, true_iff]
      refine Or.inl ?_
      rcases hb with (hb | hb | hb) | hb
      · exact Or.inl (by omega)
      · exact Or.inr (Or.inl (by omega))
      · exact Or.inr (Or.inr (Or.inl (by omega)))
      · exact Or.inr (Or.inr (Or.inr hb))
    · simp only [h2, Res.ok_bind, decryptSymmetric_panic]
      refine ⟨Or.inr, fun h => h.resolve_left fun h => hb ?_⟩
      rcases h with h | h | h | h
      · exact Or.inl (Or.inl (by omega))
      · exact Or.inl (Or.inr (Or.inl (by omega)))
      · exact Or.inl (Or.inr (Or.inr (by omega)))
      · exact Or.inr h

/-- **C65, AC17 CP-ABE.** For every key and every ciphertext, with any stored text: `cp_decrypt` panics exactly if the parser
does, or the key has attributes, they satisfy the policy, and pruning visits a gate with fewer than two children, some
vector used has less than three elements or the payload less than 12 bytes. -/
theorem C65_ac17_cp_abort_iff (env : Env F G1 G2 Gt) (sk : CpSecretKey G1 G2) (ct : CpCiphertext G1 G2 Gt) :
    cpDecrypt env sk ct = .panic ↔ parse ct.policy.1 ct.policy.2 = .panic ∨ ∃ p, Denotes ct.policy.1 ct.policy.2 p ∧
      sk.attr ≠ [] ∧ p.sat sk.attr = true ∧ (¬ Reach sk.attr p ∨
        (sk.sk.kP.length < 3 ∨ sk.sk.k0.length < 3 ∨ ct.ct.c0.length < 3 ∨
          ¬ Full (ct.ct.c ++ sk.sk.k) ((pick sk.attr p).map (·.1))) ∨ ct.ct.ct.length < 12) :=
  abort_split (fun h => by simp [cpDecrypt, cpRecover, h]) (fun h => by simp [cpDecrypt, cpRecover, h]) fun p hp => by
    by_cases hA : sk.attr ≠ [] ∧ p.sat sk.attr = true
    · by_cases hr : Reach sk.attr p
      · rw [cp_abort_reach env sk ct p hp hr]
        simp [hA, hr]
      · have hp' : parse ct.policy.1 ct.policy.2 = .ok p.toValue := hp
        have ht : traversePolicy sk.attr p.toValue .leaf = true := (traverse_true _ _ _).2 hA
        simp [cpDecrypt, cpRecover, hp', ht, (calcPruned_reach _ p).2 hr, hA, hr]
    · have hp' : parse ct.policy.1 ct.policy.2 = .ok p.toValue := hp
      have ht : traversePolicy sk.attr p.toValue .leaf = false := by
        rw [← Bool.not_eq_true]
        exact fun h => hA ((traverse_true _ _ _).1 h)
      simp only [cpDecrypt, cpRecover, hp', Res.ok_bind, ht, if_true, Res.err_bind, reduceCtorEq, false_iff]
      exact fun h => hA ⟨h.1, h.2.1⟩

/-- Exact condition if all gates that pruning visits have at least two children. -/
theorem kp_abort_reach (env : Env F G1 G2 Gt) (sk : KpSecretKey G1 G2) (ct : KpCiphertext G1 G2 Gt) (p : Pol)
    (hp : Denotes sk.policy.1 sk.policy.2 p) (hr : Reach ct.attr p) :
    kpDecrypt env sk ct = .panic ↔ p.sat ct.attr = true ∧
      ((sk.sk.k0.length < 3 ∨ ct.ct.c0.length < 3 ∨
        ¬ Full (ct.ct.c ++ sk.sk.k) ((pick ct.attr p).map (·.1))) ∨ ct.ct.ct.length < 12) := by
  have hp' : parse sk.policy.1 sk.policy.2 = .ok p.toValue := hp
  cases hs : p.sat ct.attr with
  | false => simp [kpDecrypt, kpRecover, hp', traverse_reach _ hr, hs]
  | true =>
    have key := loop_panic (sk := sk.sk) (ct := ct.ct) (list := (pick ct.attr p).map leafKey)
      (step := kpDecStep env sk.sk ct.ct ((pick ct.attr p).map leafKey))
      (lim := fun i => sk.sk.k0.length ≤ i ∨ ct.ct.c0.length ≤ i)
      (by intro i hi h; omega) (by
        intro i _ acc
        rw [mem_append_bad]
        simp only [kpDecStep]
        rcases listSum_panic ct.ct.c i ((pick ct.attr p).map leafKey) with ⟨b1, e1⟩ | ⟨b1, y1, e1⟩
        · exact Or.inl ⟨Or.inr (Or.inl b1), by simp [e1]⟩
        rcases listSum_panic sk.sk.k i ((pick ct.attr p).map leafKey) with ⟨b2, e2⟩ | ⟨b2, y2, e2⟩
        · exact Or.inl ⟨Or.inr (Or.inr b2), by simp [e1, e2]⟩
        rcases index_panic ct.ct.c0 i with ⟨b4, e4⟩ | ⟨b4, y4, e4⟩
        · exact Or.inl ⟨Or.inl (Or.inr b4), by simp [e1, e2, e4]⟩
        rcases index_panic sk.sk.k0 i with ⟨b5, e5⟩ | ⟨b5, y5, e5⟩
        · exact Or.inl ⟨Or.inl (Or.inl b5), by simp [e1, e2, e4, e5]⟩
        · exact Or.inr ⟨by rintro ((h | h) | h | h) <;> contradiction, by simp [e1, e2, e4, e5]⟩) (0, 0)
    have hnames : ((pick ct.attr p).map leafKey).map (·.1) = (pick ct.attr p).map (·.1) := by
      rw [List.map_map]; rfl
    rw [hnames] at key
    simp only [kpDecrypt, kpRecover, hp', Res.ok_bind, traverse_reach _ hr, hs, Bool.true_eq_false, if_false,
      (calcPruned_reach _ p).1 hr, if_true, true_and]
    rcases key with ⟨hb, h2⟩ | ⟨hb, y, h2⟩
    · simp only [h2, Res.panic_bind, true_iff]
      refine Or.inl ?_
      rcases hb with (hb | hb) | hb
      · exact Or.inl (by omega)
      · exact Or.inr (Or.inl (by omega))
      · exact Or.inr (Or.inr hb)
    · simp only [h2, Res.ok_bind, decryptSymmetric_panic]
      refine ⟨Or.inr, fun h => h.resolve_left fun h => hb ?_⟩
      rcases h with h | h | h
      · exact Or.inl (Or.inl (by omega))
      · exact Or.inl (Or.inr (by omega))
      · exact Or.inr h

/-- **C65, AC17 KP-ABE.** For every key with any stored text and every ciphertext: `kp_decrypt` panics exactly if the parser
does, or the ciphertext has attributes, they satisfy the policy, and pruning visits a gate with fewer than two children,
some vector used has less than three elements or the payload less than 12 bytes. -/
theorem C65_ac17_kp_abort_iff (env : Env F G1 G2 Gt) (sk : KpSecretKey G1 G2) (ct : KpCiphertext G1 G2 Gt) :
    kpDecrypt env sk ct = .panic ↔ parse sk.policy.1 sk.policy.2 = .panic ∨ ∃ p, Denotes sk.policy.1 sk.policy.2 p ∧
      ct.attr ≠ [] ∧ p.sat ct.attr = true ∧ (¬ Reach ct.attr p ∨
        (sk.sk.k0.length < 3 ∨ ct.ct.c0.length < 3 ∨
          ¬ Full (ct.ct.c ++ sk.sk.k) ((pick ct.attr p).map (·.1))) ∨ ct.ct.ct.length < 12) :=
  abort_split (fun h => by simp [kpDecrypt, kpRecover, h]) (fun h => by simp [kpDecrypt, kpRecover, h]) fun p hp => by
    by_cases hA : ct.attr ≠ [] ∧ p.sat ct.attr = true
    · by_cases hr : Reach ct.attr p
      · rw [kp_abort_reach env sk ct p hp hr]
        simp [hA, hr]
      · have hp' : parse sk.policy.1 sk.policy.2 = .ok p.toValue := hp
        have ht : traversePolicy ct.attr p.toValue .leaf = true := (traverse_true _ _ _).2 hA
        simp [kpDecrypt, kpRecover, hp', ht, (calcPruned_reach _ p).2 hr, hA, hr]
    · have hp' : parse sk.policy.1 sk.policy.2 = .ok p.toValue := hp
      have ht : traversePolicy ct.attr p.toValue .leaf = false := by
        rw [← Bool.not_eq_true]
        exact fun h => hA ((traverse_true _ _ _).1 h)
      simp only [kpDecrypt, kpRecover, hp', Res.ok_bind, ht, if_true, Res.err_bind, reduceCtorEq, false_iff]
      exact fun h => hA ⟨h.1, h.2.1⟩

/-- **C65, AC17, partial.** With vectors of three elements throughout and a payload of at least 12 bytes (wide gates)
neither decryption aborts. (Full claim: every ciphertext; false, see `C65_violated_ac17`.) -/
theorem C65_ac17_no_abort_partial (env : Env F G1 G2 Gt) (p : Pol) (hw : p.Wide) :
    (∀ (sk : CpSecretKey G1 G2) (ct : CpCiphertext G1 G2 Gt), Denotes ct.policy.1 ct.policy.2 p →
      sk.sk.kP.length = 3 → sk.sk.k0.length = 3 → ct.ct.c0.length = 3 → (∀ e ∈ ct.ct.c ++ sk.sk.k, e.2.length = 3) →
      12 ≤ ct.ct.ct.length → cpDecrypt env sk ct ≠ .panic) ∧
    (∀ (sk : KpSecretKey G1 G2) (ct : KpCiphertext G1 G2 Gt), Denotes sk.policy.1 sk.policy.2 p →
      sk.sk.k0.length = 3 → ct.ct.c0.length = 3 → (∀ e ∈ ct.ct.c ++ sk.sk.k, e.2.length = 3) →
      12 ≤ ct.ct.ct.length → kpDecrypt env sk ct ≠ .panic) := by
  constructor
  · intro sk ct hp h1 h2 h3 h4 h5
    rw [ne_eq, cp_abort_reach env sk ct p hp (Wide.reach _ p hw)]
    have : Full (ct.ct.c ++ sk.sk.k) ((pick sk.attr p).map (·.1)) := fun e he _ => by rw [h4 e he]
    rintro ⟨_, (h | h | h | h) | h⟩ <;> first | omega | exact h this
  · intro sk ct hp h2 h3 h4 h5
    rw [ne_eq, kp_abort_reach env sk ct p hp (Wide.reach _ p hw)]
    have : Full (ct.ct.c ++ sk.sk.k) ((pick ct.attr p).map (·.1)) := fun e he _ => by rw [h4 e he]
    rintro ⟨_, (h | h | h) | h⟩ <;> first | omega | exact h this

/-- **C65 is violated in AC17.** For every CP key with the attribute `A`, and for every KP key for `"A" or "B"`, whatever
their values, there is a ciphertext with a payload of 12 bytes that aborts the decryption. -/
theorem C65_violated_ac17 (env : Env F G1 G2 Gt) :
    (∀ sk : CpSecretKey G1 G2, ['A'] ∈ sk.attr →
      cpDecrypt env sk ⟨(chars% "\"A\" or \"B\"", .human), ⟨[], [], 0, List.replicate 12 0⟩⟩ = .panic) ∧
    (∀ sk : KpSecretKey G1 G2, sk.policy = (chars% "\"A\" or \"B\"", .human) →
      kpDecrypt env sk ⟨[['A']], ⟨[], [], 0, List.replicate 12 0⟩⟩ = .panic) := by
  constructor
  · intro sk ha
    refine (cp_abort_reach env sk _ (.gate .or [.leaf ['A'] 2, .leaf ['B'] 9]) denotes_ab (Wide.reach _ _ (by simp [Pol.Wide]))).2 ?_
    exact ⟨by simpa using Or.inl ha, Or.inl (Or.inr (Or.inr (Or.inl (by simp))))⟩
  · intro sk hp
    rw [kp_abort_reach env sk _ (.gate .or [.leaf ['A'] 2, .leaf ['B'] 9]) (by rw [hp]; exact denotes_ab) (Wide.reach _ _ (by simp [Pol.Wide]))]
    exact ⟨by simp, Or.inl (Or.inr (Or.inl (by simp)))⟩

/-- Objects meeting the hypotheses of both parts of `C65_ac17_no_abort_partial`. -/
example : ∃ p : Pol, p.Wide ∧ Denotes (chars% "\"A\" or \"B\"") .human p ∧
    (∀ e ∈ ([(['A'], [1, 2, 3])] ++ [(['A'], [4, 5, 6])] : List (Str × List Fr)), e.2.length = 3) :=
  ⟨.gate .or [.leaf ['A'] 2, .leaf ['B'] 9], by simp [Pol.Wide], rfl, by simp⟩

end Ac17

namespace Lsw

/-- Exact condition if all gates that pruning visits have at least two children. -/
theorem abort_reach [BigChar F] (env : Env F G1 G2 Gt) (pk : PublicKey G1 G2 Gt) (msk : MasterKey F G1 G2)
    (text : Str) (lang : PolicyLanguage) (p : Pol) (hp : Denotes text lang p)
    (t t' : Tape F G1 G2 Gt) (sk : SecretKey G1 G2) (hkey : keygen env pk msk text lang t = .ok (sk, t'))
    (ct : Ciphertext G1 G2 Gt) (hr : Reach (ct.ej.map (·.name)) p) :
    decrypt env sk ct = .panic ↔ p.sat (ct.ej.map (·.name)) = true ∧
      ((∃ l ∈ pick (ct.ej.map (·.name)) p, '_' ∈ l.1) ∨ ct.ct.length < 12) := by
  obtain ⟨hk, _⟩ := keygen_ok hp hkey
  have hp' := hk.policy
  have hlab : (shares p msk.alpha1 t.fr).map (·.1) = p.leaves.map leafIdx := by
    rw [shares, List.map_fst_zip (by simp [shareVals_length])]
  have hmap : sk.dj.map (·.name) = p.leaves.map fun l => l.1.takeWhile (· != '_') := by
    have h1 : sk.dj.map (·.name) = (shares p msk.alpha1 t.fr).map fun x => removeIndex x.1 :=
      Forall₂.map_eq hk.dj fun x y h => h.1
    have h2 : ((shares p msk.alpha1 t.fr).map fun x => removeIndex x.1) =
        ((shares p msk.alpha1 t.fr).map (·.1)).map removeIndex := by rw [List.map_map]; rfl
    rw [h1, h2, hlab, List.map_map]
    exact List.map_congr_left fun l _ => removeIndex_nodeIndex_eq _ _
  have hnames : ∀ n, n ∈ sk.dj.map (·.name) ↔ ∃ l ∈ p.leaves, l.1.takeWhile (· != '_') = n := by
    intro n
    rw [hmap, List.mem_map]
  have hneg : ∀ l ∈ p.leaves, ∃ b, isNegative (l.1.takeWhile (· != '_')) = .ok b := by
    intro l hl
    have hx : leafIdx l ∈ (shares p msk.alpha1 t.fr).map (·.1) := hlab ▸ List.mem_map.2 ⟨l, hl, rfl⟩
    obtain ⟨x, hx, hxl⟩ := List.mem_map.1 hx
    obtain ⟨y, _, _, b, hb, _⟩ := Forall₂.mem_left hk.dj x hx
    rw [hxl] at hb
    exact ⟨b, by rw [← removeIndex_nodeIndex_eq l.1 l.2]; exact hb⟩
  cases hs : p.sat (ct.ej.map (·.name)) with
  | false => simp [decrypt, hp', hs, (calcPruned_reach _ p).1 hr]
  | true =>
    have hstep : ∀ x ∈ (pick (ct.ej.map (·.name)) p).map leafKey,
        ('_' ∈ x.1 ∧ ∀ acc, decryptStep env sk ct (coeffs p 1) acc x = .panic) ∨
        (¬ '_' ∈ x.1 ∧ ∀ acc, ∃ y, decryptStep env sk ct (coeffs p 1) acc x = .ok y) := by
      intro x hx
      obtain ⟨l, hl, rfl⟩ := List.mem_map.1 hx
      have hlp := (pick_sublist _ p).subset hl
      obtain ⟨c, hc⟩ := coeffs_find (F := F) hlp
      obtain ⟨a, _, ha, _⟩ := exists_find? (fun a : CtAttr G1 => a.name) ct.ej l.1 (pick_owned _ p l hl)
      have hkk : leafKey l = (l.1, leafIdx l) := rfl
      by_cases hu : '_' ∈ l.1
      · refine Or.inl ⟨hu, fun acc => ?_⟩
        have hb := find?_none_of_not_mem (fun a : KeyAttr G1 G2 => a.name) sk.dj l.1 (by
          rw [hnames]
          rintro ⟨l', _, h'⟩
          exact not_mem_strip _ (h' ▸ hu))
        simp [decryptStep, hkk, hb]
      · refine Or.inr ⟨hu, fun acc => ?_⟩
        have hst := removeIndex_of_not_mem hu
        obtain ⟨b, _, hb, _⟩ := exists_find? (fun a : KeyAttr G1 G2 => a.name) sk.dj l.1
          ((hnames _).2 ⟨l, hlp, hst⟩)
        obtain ⟨n, hn⟩ := hneg l hlp
        rw [hst] at hn
        simp [decryptStep, hkk, hc, ha, hb, hn]
    simp only [decrypt, hp', Res.ok_bind, (calcPruned_reach _ p).1 hr, hs, calcCoefficients_eq, List.nil_append,
      Res.unwrapOption_some, if_true, true_and]
    rcases foldR_panic hstep (0, 0) with ⟨⟨x, hx, hb⟩, h2⟩ | ⟨h1, y, h2⟩
    · obtain ⟨l, hl, rfl⟩ := List.mem_map.1 hx
      simp only [h2, Res.panic_bind, true_iff]
      exact Or.inl ⟨l, hl, hb⟩
    · simp only [h2, Res.ok_bind, decryptSymmetric_panic]
      refine ⟨Or.inr, fun h => h.resolve_left ?_⟩
      rintro ⟨l, hl, hb⟩
      exact h1 ⟨leafKey l, List.mem_map.2 ⟨l, hl, rfl⟩, hb⟩

/-- **C65, LSW.** An issued key for any accepted text and any ciphertext: `decrypt` panics exactly if pruning visits a gate with
fewer than two children, or the ciphertext's attributes satisfy the policy and one of the leaves used has an underscore in
its name or the payload has less than 12 bytes. -/
theorem C65_lsw_abort_iff [BigChar F] (env : Env F G1 G2 Gt) (pk : PublicKey G1 G2 Gt) (msk : MasterKey F G1 G2)
    (text : Str) (lang : PolicyLanguage) (p : Pol) (hp : Denotes text lang p)
    (t t' : Tape F G1 G2 Gt) (sk : SecretKey G1 G2) (hkey : keygen env pk msk text lang t = .ok (sk, t'))
    (ct : Ciphertext G1 G2 Gt) :
    decrypt env sk ct = .panic ↔ ¬ Reach (ct.ej.map (·.name)) p ∨ p.sat (ct.ej.map (·.name)) = true ∧
      ((∃ l ∈ pick (ct.ej.map (·.name)) p, '_' ∈ l.1) ∨ ct.ct.length < 12) := by
  by_cases hr : Reach (ct.ej.map (·.name)) p
  · rw [abort_reach env pk msk text lang p hp t t' sk hkey ct hr]
    simp [hr]
  · simp [decrypt, (keygen_ok hp hkey).1.policy, (calcPruned_reach _ p).2 hr, hr]

/-- The name is empty or begins with a character of more than one byte. -/
def BadFirst (n : Str) : Prop := n = [] ∨ ∃ c cs, n = c :: cs ∧ 128 ≤ c.toNat

theorem isNegative_first (n : Str) :
    (BadFirst n ∧ isNegative n = .panic) ∨ (¬ BadFirst n ∧ ∃ b, isNegative n = .ok b) := by
  unfold BadFirst
  cases n with
  | nil => left; simp [isNegative]
  | cons c cs =>
    by_cases hc : 128 ≤ c.toNat
    · left
      have : utf8Len c ≠ 1 := by
        unfold utf8Len
        have : ¬ c.toNat < 0x80 := by omega
        simp only [this, if_false]
        split <;> [skip; split] <;> omega
      exact ⟨Or.inr ⟨c, cs, rfl, hc⟩, by simp [isNegative, this]⟩
    · right
      have : utf8Len c = 1 := by
        unfold utf8Len
        have : c.toNat < 0x80 := by omega
        simp [this]
      refine ⟨?_, c == '!', by simp [isNegative, this]⟩
      rintro (h | ⟨c', cs', h, h'⟩)
      · simp at h
      · simp only [List.cons.injEq] at h
        exact hc (h.1 ▸ h')

/-- **C65, LSW, any key.** For every key, of any origin and with any stored text, and every ciphertext: `decrypt` panics exactly
if the parser does, pruning visits a gate with fewer than two children, or the ciphertext's attributes satisfy the policy and
the key has no component for one of the leaves used, the name of one of them is empty or begins with a character of more than
one byte, or the payload has less than 12 bytes. -/
theorem C65_lsw_abort_any (env : Env F G1 G2 Gt) (sk : SecretKey G1 G2) (ct : Ciphertext G1 G2 Gt) :
    decrypt env sk ct = .panic ↔ parse sk.policy.1 sk.policy.2 = .panic ∨ ∃ p, Denotes sk.policy.1 sk.policy.2 p ∧
      (¬ Reach (ct.ej.map (·.name)) p ∨ p.sat (ct.ej.map (·.name)) = true ∧
        ((∃ l ∈ pick (ct.ej.map (·.name)) p, l.1 ∉ sk.dj.map (·.name) ∨ BadFirst l.1) ∨ ct.ct.length < 12)) :=
  abort_split (fun h => by simp [decrypt, h]) (fun h => by simp [decrypt, h]) fun p hp => by
    have hp' : parse sk.policy.1 sk.policy.2 = .ok p.toValue := hp
    by_cases hr : Reach (ct.ej.map (·.name)) p
    · cases hs : p.sat (ct.ej.map (·.name)) with
      | false => simp [decrypt, hp', hs, (calcPruned_reach _ p).1 hr, hr]
      | true =>
        have hstep : ∀ x ∈ (pick (ct.ej.map (·.name)) p).map leafKey,
            ((x.1 ∉ sk.dj.map (·.name) ∨ BadFirst x.1) ∧ ∀ acc, decryptStep env sk ct (coeffs p 1) acc x = .panic) ∨
            (¬ (x.1 ∉ sk.dj.map (·.name) ∨ BadFirst x.1) ∧
              ∀ acc, ∃ y, decryptStep env sk ct (coeffs p 1) acc x = .ok y) := by
          intro x hx
          obtain ⟨l, hl, rfl⟩ := List.mem_map.1 hx
          obtain ⟨c, hc⟩ := coeffs_find (F := F) ((pick_sublist _ p).subset hl)
          obtain ⟨a, _, ha, _⟩ := exists_find? (fun a : CtAttr G1 => a.name) ct.ej l.1 (pick_owned _ p l hl)
          have hkk : leafKey l = (l.1, leafIdx l) := rfl
          by_cases hm : l.1 ∈ sk.dj.map (·.name)
          · obtain ⟨b, _, hb, _⟩ := exists_find? (fun a : KeyAttr G1 G2 => a.name) sk.dj l.1 hm
            rcases isNegative_first l.1 with ⟨h1, hn⟩ | ⟨h1, n, hn⟩
            · exact Or.inl ⟨Or.inr h1, fun acc => by simp [decryptStep, hkk, hc, ha, hb, hn]⟩
            · exact Or.inr ⟨by simpa [hkk, h1] using hm, fun acc => by simp [decryptStep, hkk, hc, ha, hb, hn]⟩
          · have hb := find?_none_of_not_mem (fun a : KeyAttr G1 G2 => a.name) sk.dj l.1 hm
            exact Or.inl ⟨Or.inl hm, fun acc => by simp [decryptStep, hkk, hb]⟩
        simp only [decrypt, hp', Res.ok_bind, (calcPruned_reach _ p).1 hr, hs, calcCoefficients_eq, List.nil_append,
          Res.unwrapOption_some, if_true, true_and, hr, not_true_eq_false, false_or]
        rcases foldR_panic hstep (0, 0) with ⟨⟨x, hx, hb⟩, h2⟩ | ⟨h1, y, h2⟩
        · obtain ⟨l, hl, rfl⟩ := List.mem_map.1 hx
          simp only [h2, Res.panic_bind, true_iff]
          exact Or.inl ⟨l, hl, hb⟩
        · simp only [h2, Res.ok_bind, decryptSymmetric_panic]
          refine ⟨Or.inr, fun h => h.resolve_left ?_⟩
          rintro ⟨l, hl, hb⟩
          exact h1 ⟨leafKey l, List.mem_map.2 ⟨l, hl, rfl⟩, hb⟩
    · simp [decrypt, hp', (calcPruned_reach _ p).2 hr, hr]

/-- Keys that were never issued: without components (aborts on a ciphertext for `A`, not on one for `C`), and with a component
for `A` (does not abort). -/
example : decrypt toyEnv (⟨(chars% "\"A\" or \"B\"", .human), []⟩ : SecretKey Fr Fr)
      (⟨0, 0, [⟨['A'], 0, 0, 0⟩], List.replicate 12 0⟩ : Ciphertext Fr Fr Fr) = .panic ∧
    decrypt toyEnv (⟨(chars% "\"A\" or \"B\"", .human), []⟩ : SecretKey Fr Fr)
      (⟨0, 0, [⟨['C'], 0, 0, 0⟩], List.replicate 12 0⟩ : Ciphertext Fr Fr Fr) ≠ .panic ∧
    decrypt toyEnv (⟨(chars% "\"A\" or \"B\"", .human), [⟨['A'], 0, 0, 0, 0, 0⟩]⟩ : SecretKey Fr Fr)
      (⟨0, 0, [⟨['A'], 0, 0, 0⟩], List.replicate 12 0⟩ : Ciphertext Fr Fr Fr) ≠ .panic := by decide +kernel

/-- **C65, LSW, partial.** An issued key for a policy (wide gates) whose names have no underscore, and a ciphertext of any
origin with a payload of at least 12 bytes: `decrypt` does not abort. (Full claim: every ciphertext and policy; false, see
`C65_violated_lsw`.) -/
theorem C65_lsw_no_abort_partial [BigChar F] (env : Env F G1 G2 Gt) (pk : PublicKey G1 G2 Gt) (msk : MasterKey F G1 G2)
    (text : Str) (lang : PolicyLanguage) (p : Pol) (hp : Denotes text lang p) (hw : p.Wide)
    (hname : ∀ n ∈ p.names, '_' ∉ n)
    (t t' : Tape F G1 G2 Gt) (sk : SecretKey G1 G2) (hkey : keygen env pk msk text lang t = .ok (sk, t'))
    (ct : Ciphertext G1 G2 Gt) (hl : 12 ≤ ct.ct.length) : decrypt env sk ct ≠ .panic := by
  rw [ne_eq, abort_reach env pk msk text lang p hp t t' sk hkey ct (Wide.reach _ p hw)]
  rintro ⟨_, ⟨l, hl, h⟩ | h⟩
  · exact hname _ (List.mem_map.2 ⟨l, (pick_sublist _ p).subset hl, rfl⟩) h
  · omega

/-- **C65 is violated in LSW.** An issued key for `"A_1" or "B"` aborts on every ciphertext, whatever its values, that
names the attribute `A_1`; an issued key for `"A" or "B"` aborts on every ciphertext with a short payload that names the
attribute `A`. -/
theorem C65_violated_lsw [BigChar F] (env : Env F G1 G2 Gt) (pk : PublicKey G1 G2 Gt) (msk : MasterKey F G1 G2)
    (t t' : Tape F G1 G2 Gt) (sk : SecretKey G1 G2) (ct : Ciphertext G1 G2 Gt) :
    (keygen env pk msk (chars% "\"A_1\" or \"B\"") .human t = .ok (sk, t') → ['A', '_', '1'] ∈ ct.ej.map (·.name) →
      decrypt env sk ct = .panic) ∧
    (keygen env pk msk (chars% "\"A\" or \"B\"") .human t = .ok (sk, t') → ['A'] ∈ ct.ej.map (·.name) →
      ct.ct.length < 12 → decrypt env sk ct = .panic) := by
  constructor
  · intro hkey ha
    refine (abort_reach env pk msk _ _ (.gate .or [.leaf ['A', '_', '1'] 2, .leaf ['B'] 11]) denotes_a1b
      t t' sk hkey ct (Wide.reach _ _ (by simp [Pol.Wide]))).2 ?_
    have hs : Pol.sat (ct.ej.map (·.name)) (.leaf ['A', '_', '1'] 2) = true := by simpa using ha
    refine ⟨by simpa using Or.inl ha, Or.inl ⟨(['A', '_', '1'], 2), ?_, by simp⟩⟩
    simp only [pick, pickFirst, hs, if_true]
    simp [ha]
  · intro hkey ha hl
    refine (abort_reach env pk msk _ _ (.gate .or [.leaf ['A'] 2, .leaf ['B'] 9]) denotes_ab
      t t' sk hkey ct (Wide.reach _ _ (by simp [Pol.Wide]))).2 ?_
    exact ⟨by simpa using Or.inl ha, Or.inr hl⟩

/-- A key and ciphertexts meeting the hypotheses of the three theorems. -/
example : ∃ (pk : PublicKey Fr Fr Fr) (msk : MasterKey Fr Fr Fr) (sk sk' : SecretKey Fr Fr)
    (ct ct' : Ciphertext Fr Fr Fr) (t t' t'' : Tape Fr Fr Fr Fr), setup toyEnv toyTape = .ok ((pk, msk), t) ∧
    keygen toyEnv pk msk (chars% "\"A_1\" or \"B\"") .human toyTape = .ok (sk, t') ∧
    keygen toyEnv pk msk (chars% "\"A\" or \"B\"") .human toyTape = .ok (sk', t'') ∧
    ['A', '_', '1'] ∈ ct.ej.map (·.name) ∧ 12 ≤ ct.ct.length ∧ ['A'] ∈ ct'.ej.map (·.name) ∧ ct'.ct.length < 12 := by
  have h : (do
    let x ← setup toyEnv toyTape
    let y ← keygen toyEnv x.1.1 x.1.2 (chars% "\"A_1\" or \"B\"") .human toyTape
    let y' ← keygen toyEnv x.1.1 x.1.2 (chars% "\"A\" or \"B\"") .human toyTape
    .ok (y.1.dj.length, y'.1.dj.length) : Res (ℕ × ℕ)) = .ok (2, 2) := by decide +kernel
  simp only [Res.bind_eq_ok] at h
  obtain ⟨⟨⟨pk, msk⟩, t1⟩, h1, ⟨sk, t2⟩, h2, ⟨sk', t3⟩, h3, _⟩ := h
  exact ⟨pk, msk, sk, sk', ⟨0, 0, [⟨['A', '_', '1'], 0, 0, 0⟩], List.replicate 12 0⟩, ⟨0, 0, [⟨['A'], 0, 0, 0⟩], []⟩,
    t1, t2, t3, h1, h2, h3, by simp, by simp, by simp, by simp⟩

end Lsw

namespace Yct14

/-- The first entry of the ciphertext with this name holds a public value. -/
def Readable (ct : Ciphertext F Gt) (n : Str) : Prop :=
  ∃ a g, ct.attributes.find? (fun a => a.name == n) = some a ∧ a.node = some (.pub g)

/-- Exact condition if all gates that pruning visits have at least two children. -/
theorem abort_reach [BigChar F] (env : Env F G1 G2 Gt) (uni : List Str)
    (t₁ t₁' : Tape F G1 G2 Gt) (pk : PublicKey F Gt) (msk : MasterKey F Gt)
    (hsetup : setup uni t₁ = .ok ((pk, msk), t₁'))
    (text : Str) (lang : PolicyLanguage) (p : Pol) (hp : Denotes text lang p)
    (t₂ t₂' : Tape F G1 G2 Gt) (sk : SecretKey F Gt) (hkey : keygen msk text lang t₂ = .ok (sk, t₂'))
    (ct : Ciphertext F Gt) (hr : Reach (ct.attributes.map (·.name)) p) :
    decrypt env sk ct = .panic ↔ p.sat (ct.attributes.map (·.name)) = true ∧
      ((∃ l ∈ pick (ct.attributes.map (·.name)) p, '_' ∈ l.1 ∨ l.1 ∉ uni ∨ ¬ Readable ct l.1) ∨ ct.ct.length < 12) := by
  obtain ⟨g, L, hs⟩ := setup_ok hsetup
  obtain ⟨hk, _⟩ := keygen_ok hs hp hkey
  have hp' := hk.policy
  have hlab : (shares p msk.s t₂.fr).map (·.1) = p.leaves.map leafIdx := by
    rw [shares, List.map_fst_zip (by simp [shareVals_length])]
  have hnames : ∀ n, n ∈ sk.du.map (·.name) ↔ n ∈ uni ∧ ∃ l ∈ p.leaves, l.1.takeWhile (· != '_') = n := by
    intro n
    constructor
    · intro h
      obtain ⟨y, hy, rfl⟩ := List.mem_map.1 h
      obtain ⟨x, hx, e, he, _, rfl⟩ := hk.sound y hy
      have hx' : x.1 ∈ p.leaves.map leafIdx := hlab ▸ List.mem_map.2 ⟨x, hx, rfl⟩
      obtain ⟨l, hl, hlx⟩ := List.mem_map.1 hx'
      refine ⟨?_, l, hl, ?_⟩
      · rw [← hs.names, ← expOf_isSome, he]; rfl
      · simp only [← hlx]
        exact (removeIndex_nodeIndex_eq _ _).symm
    · rintro ⟨hn, l, hl, rfl⟩
      have hx : leafIdx l ∈ (shares p msk.s t₂.fr).map (·.1) := hlab ▸ List.mem_map.2 ⟨l, hl, rfl⟩
      obtain ⟨x, hx, hxl⟩ := List.mem_map.1 hx
      have hr : removeIndex x.1 = l.1.takeWhile (· != '_') := by rw [hxl]; exact removeIndex_nodeIndex_eq _ _
      have := hk.complete x hx (by rw [hr, hs.names]; exact hn)
      rwa [hr] at this
  cases hsat : p.sat (ct.attributes.map (·.name)) with
  | false => simp [decrypt, hp', hsat, (calcPruned_reach _ p).1 hr]
  | true =>
    have hstep : ∀ x ∈ (pick (ct.attributes.map (·.name)) p).map leafKey,
        (('_' ∈ x.1 ∨ x.1 ∉ uni ∨ ¬ Readable ct x.1) ∧ ∀ acc, decryptStep sk ct (coeffs p 1) acc x = .panic) ∨
        (¬ ('_' ∈ x.1 ∨ x.1 ∉ uni ∨ ¬ Readable ct x.1) ∧
          ∀ acc, ∃ y, decryptStep sk ct (coeffs p 1) acc x = .ok y) := by
      intro x hx
      obtain ⟨l, hl, rfl⟩ := List.mem_map.1 hx
      have hlp := (pick_sublist _ p).subset hl
      obtain ⟨c, hc⟩ := coeffs_find (F := F) hlp
      obtain ⟨a, _, ha, _⟩ := exists_find? (fun a : Attribute F Gt => a.name) ct.attributes l.1 (pick_owned _ p l hl)
      have hkk : leafKey l = (l.1, leafIdx l) := rfl
      simp only [hkk]
      by_cases hr : Readable ct l.1
      · obtain ⟨a', g', ha', hg'⟩ := hr
        by_cases hm : l.1 ∈ sk.du.map (·.name)
        · have hm' := (hnames _).1 hm
          obtain ⟨b, hbm, hb, _⟩ := exists_find? (fun a : Attribute F Gt => a.name) sk.du l.1 hm
          obtain ⟨x, _, e, _, _, rfl⟩ := hk.sound b hbm
          refine Or.inr ⟨?_, fun acc => by
            simp [decryptStep, hc, Ciphertext.getPublic, SecretKey.getPrivate, ha', hg', hb, Node.public, Node.private]⟩
          rintro (h | h | h)
          · obtain ⟨_, l', _, h'⟩ := hm'
            exact not_mem_strip _ (h' ▸ h)
          · exact h hm'.1
          · exact h ⟨a', g', ha', hg'⟩
        · have hb := find?_none_of_not_mem (fun a : Attribute F Gt => a.name) sk.du l.1 hm
          refine Or.inl ⟨?_, fun acc => by
            simp [decryptStep, Ciphertext.getPublic, SecretKey.getPrivate, ha', hg', hb, Node.public]⟩
          by_contra hcon
          simp only [not_or, not_not] at hcon
          exact hm ((hnames _).2 ⟨hcon.2.1, l, hlp, removeIndex_of_not_mem hcon.1⟩)
      · refine Or.inl ⟨Or.inr (Or.inr hr), fun acc => ?_⟩
        cases hnode : a.node with
        | none => simp [decryptStep, Ciphertext.getPublic, ha, hnode]
        | some n =>
          cases n with
          | pub v => exact absurd ⟨a, v, ha, hnode⟩ hr
          | priv v => simp [decryptStep, Ciphertext.getPublic, ha, hnode, Node.public]
    simp only [decrypt, hp', Res.ok_bind, (calcPruned_reach _ p).1 hr, hsat, calcCoefficients_eq, List.nil_append,
      Res.unwrapOption_some, if_true, true_and]
    rcases foldR_panic hstep 0 with ⟨⟨x, hx, hb⟩, h2⟩ | ⟨h1, y, h2⟩
    · obtain ⟨l, hl, rfl⟩ := List.mem_map.1 hx
      simp only [h2, Res.panic_bind, true_iff]
      exact Or.inl ⟨l, hl, hb⟩
    · simp only [h2, Res.ok_bind, decryptSymmetric_panic]
      refine ⟨Or.inr, fun h => h.resolve_left ?_⟩
      rintro ⟨l, hl, hb⟩
      exact h1 ⟨leafKey l, List.mem_map.2 ⟨l, hl, rfl⟩, hb⟩

/-- **C65, YCT14.** An issued key for any accepted text and any ciphertext: `decrypt` panics exactly if pruning visits a gate
with fewer than two children, or the ciphertext's attributes satisfy the policy and one of the leaves used has an underscore
in its name, is outside the universe or has no public value in the ciphertext, or the payload has less than 12 bytes. -/
theorem C65_yct14_abort_iff [BigChar F] (env : Env F G1 G2 Gt) (uni : List Str)
    (t₁ t₁' : Tape F G1 G2 Gt) (pk : PublicKey F Gt) (msk : MasterKey F Gt)
    (hsetup : setup uni t₁ = .ok ((pk, msk), t₁'))
    (text : Str) (lang : PolicyLanguage) (p : Pol) (hp : Denotes text lang p)
    (t₂ t₂' : Tape F G1 G2 Gt) (sk : SecretKey F Gt) (hkey : keygen msk text lang t₂ = .ok (sk, t₂'))
    (ct : Ciphertext F Gt) :
    decrypt env sk ct = .panic ↔ ¬ Reach (ct.attributes.map (·.name)) p ∨ p.sat (ct.attributes.map (·.name)) = true ∧
      ((∃ l ∈ pick (ct.attributes.map (·.name)) p, '_' ∈ l.1 ∨ l.1 ∉ uni ∨ ¬ Readable ct l.1) ∨ ct.ct.length < 12) := by
  by_cases hr : Reach (ct.attributes.map (·.name)) p
  · rw [abort_reach env uni t₁ t₁' pk msk hsetup text lang p hp t₂ t₂' sk hkey ct hr]
    simp [hr]
  · obtain ⟨g, L, hs⟩ := setup_ok hsetup
    simp [decrypt, (keygen_ok hs hp hkey).1.policy, (calcPruned_reach _ p).2 hr, hr]

/-- The first entry of the key with this name holds a private value. -/
def Usable (sk : SecretKey F Gt) (n : Str) : Prop :=
  ∃ a x, sk.du.find? (fun a => a.name == n) = some a ∧ a.node = some (.priv x)

/-- **C65, YCT14, any key.** For every key, of any origin and with any stored text, and every ciphertext: `decrypt` panics exactly
if the parser does, pruning visits a gate with fewer than two children, or the ciphertext's attributes satisfy the policy and
one of the leaves used has no public value in the ciphertext or no private value in the key, or the payload has less than 12
bytes. -/
theorem C65_yct14_abort_any (env : Env F G1 G2 Gt) (sk : SecretKey F Gt) (ct : Ciphertext F Gt) :
    decrypt env sk ct = .panic ↔ parse sk.policy.1 sk.policy.2 = .panic ∨ ∃ p, Denotes sk.policy.1 sk.policy.2 p ∧
      (¬ Reach (ct.attributes.map (·.name)) p ∨ p.sat (ct.attributes.map (·.name)) = true ∧
        ((∃ l ∈ pick (ct.attributes.map (·.name)) p, ¬ Readable ct l.1 ∨ ¬ Usable sk l.1) ∨ ct.ct.length < 12)) :=
  abort_split (fun h => by simp [decrypt, h]) (fun h => by simp [decrypt, h]) fun p hp => by
    have hp' : parse sk.policy.1 sk.policy.2 = .ok p.toValue := hp
    by_cases hr : Reach (ct.attributes.map (·.name)) p
    · cases hs : p.sat (ct.attributes.map (·.name)) with
      | false => simp [decrypt, hp', hs, (calcPruned_reach _ p).1 hr, hr]
      | true =>
        have hstep : ∀ x ∈ (pick (ct.attributes.map (·.name)) p).map leafKey,
            ((¬ Readable ct x.1 ∨ ¬ Usable sk x.1) ∧ ∀ acc, decryptStep sk ct (coeffs p 1) acc x = .panic) ∨
            (¬ (¬ Readable ct x.1 ∨ ¬ Usable sk x.1) ∧ ∀ acc, ∃ y, decryptStep sk ct (coeffs p 1) acc x = .ok y) := by
          intro x hx
          obtain ⟨l, hl, rfl⟩ := List.mem_map.1 hx
          obtain ⟨c, hc⟩ := coeffs_find (F := F) ((pick_sublist _ p).subset hl)
          have hkk : leafKey l = (l.1, leafIdx l) := rfl
          simp only [hkk]
          by_cases h1 : Readable ct l.1
          · by_cases h2 : Usable sk l.1
            · refine Or.inr ⟨by simp [h1, h2], fun acc => ?_⟩
              obtain ⟨a, g, ha, hg⟩ := h1
              obtain ⟨b, x, hb, hx⟩ := h2
              simp [decryptStep, hc, Ciphertext.getPublic, SecretKey.getPrivate, ha, hg, hb, hx, Node.public, Node.private]
            · refine Or.inl ⟨Or.inr h2, fun acc => ?_⟩
              obtain ⟨a, g, ha, hg⟩ := h1
              cases hb : sk.du.find? (fun a => a.name == l.1) with
              | none => simp [decryptStep, Ciphertext.getPublic, SecretKey.getPrivate, ha, hg, hb, Node.public]
              | some b =>
                cases hn : b.node with
                | none => simp [decryptStep, Ciphertext.getPublic, SecretKey.getPrivate, ha, hg, hb, hn, Node.public]
                | some n =>
                  cases n with
                  | priv v => exact absurd ⟨b, v, hb, hn⟩ h2
                  | pub v =>
                    simp [decryptStep, Ciphertext.getPublic, SecretKey.getPrivate, ha, hg, hb, hn, Node.public, Node.private]
          · refine Or.inl ⟨Or.inl h1, fun acc => ?_⟩
            cases ha : ct.attributes.find? (fun a => a.name == l.1) with
            | none => simp [decryptStep, Ciphertext.getPublic, ha]
            | some a =>
              cases hn : a.node with
              | none => simp [decryptStep, Ciphertext.getPublic, ha, hn]
              | some n =>
                cases n with
                | pub v => exact absurd ⟨a, v, ha, hn⟩ h1
                | priv v => simp [decryptStep, Ciphertext.getPublic, ha, hn, Node.public]
        simp only [decrypt, hp', Res.ok_bind, (calcPruned_reach _ p).1 hr, hs, calcCoefficients_eq, List.nil_append,
          Res.unwrapOption_some, if_true, true_and, hr, not_true_eq_false, false_or]
        rcases foldR_panic hstep 0 with ⟨⟨x, hx, hb⟩, h2⟩ | ⟨h1, y, h2⟩
        · obtain ⟨l, hl, rfl⟩ := List.mem_map.1 hx
          simp only [h2, Res.panic_bind, true_iff]
          exact Or.inl ⟨l, hl, hb⟩
        · simp only [h2, Res.ok_bind, decryptSymmetric_panic]
          refine ⟨Or.inr, fun h => h.resolve_left ?_⟩
          rintro ⟨l, hl, hb⟩
          exact h1 ⟨leafKey l, List.mem_map.2 ⟨l, hl, rfl⟩, hb⟩
    · simp [decrypt, hp', (calcPruned_reach _ p).2 hr, hr]

/-- Keys that were never issued: without entries (aborts on a ciphertext for `A`, not on one for `C`), and with a public instead
of a private value for `A` (aborts), and with a private value (does not abort). -/
example : decrypt toyEnv (⟨(chars% "\"A\" or \"B\"", .human), []⟩ : SecretKey Fr Fr)
      ⟨[⟨['A'], some (.pub 1)⟩], List.replicate 12 0⟩ = .panic ∧
    decrypt toyEnv (⟨(chars% "\"A\" or \"B\"", .human), []⟩ : SecretKey Fr Fr)
      ⟨[⟨['C'], some (.pub 1)⟩], List.replicate 12 0⟩ ≠ .panic ∧
    decrypt toyEnv (⟨(chars% "\"A\" or \"B\"", .human), [⟨['A'], some (.pub 1)⟩]⟩ : SecretKey Fr Fr)
      ⟨[⟨['A'], some (.pub 1)⟩], List.replicate 12 0⟩ = .panic ∧
    decrypt toyEnv (⟨(chars% "\"A\" or \"B\"", .human), [⟨['A'], some (.priv 1)⟩]⟩ : SecretKey Fr Fr)
      ⟨[⟨['A'], some (.pub 1)⟩], List.replicate 12 0⟩ ≠ .panic := by decide +kernel

/-- **C65, YCT14, partial.** An issued key for a policy (wide gates) over the universe whose names have no underscore, and
a ciphertext of any origin that holds a public value for each of its attributes and a payload of at least 12 bytes:
`decrypt` does not abort. (Full claim: every ciphertext and policy; false, see `C65_violated_yct14`.) -/
theorem C65_yct14_no_abort_partial [BigChar F] (env : Env F G1 G2 Gt) (uni : List Str)
    (t₁ t₁' : Tape F G1 G2 Gt) (pk : PublicKey F Gt) (msk : MasterKey F Gt)
    (hsetup : setup uni t₁ = .ok ((pk, msk), t₁'))
    (text : Str) (lang : PolicyLanguage) (p : Pol) (hp : Denotes text lang p) (hw : p.Wide)
    (hname : ∀ n ∈ p.names, '_' ∉ n ∧ n ∈ uni)
    (t₂ t₂' : Tape F G1 G2 Gt) (sk : SecretKey F Gt) (hkey : keygen msk text lang t₂ = .ok (sk, t₂'))
    (ct : Ciphertext F Gt) (hpub : ∀ a ∈ ct.attributes, ∃ g, a.node = some (.pub g)) (hl : 12 ≤ ct.ct.length) :
    decrypt env sk ct ≠ .panic := by
  rw [ne_eq, abort_reach env uni t₁ t₁' pk msk hsetup text lang p hp t₂ t₂' sk hkey ct (Wide.reach _ p hw)]
  rintro ⟨_, ⟨l, hl, h⟩ | h⟩
  · have hn := hname _ (List.mem_map.2 ⟨l, (pick_sublist _ p).subset hl, rfl⟩)
    obtain ⟨a, ham, ha, _⟩ := exists_find? (fun a : Attribute F Gt => a.name) ct.attributes l.1 (pick_owned _ p l hl)
    obtain ⟨g, hg⟩ := hpub a ham
    rcases h with h | h | h
    · exact hn.1 h
    · exact h hn.2
    · exact h ⟨a, g, ha, hg⟩
  · omega

/-- **C65 is violated in YCT14.** An issued key for `"A" or "B"` aborts on every ciphertext that names the attribute `A`
if `A` is not in the universe, and on every ciphertext with a private value for `A`. -/
theorem C65_violated_yct14 [BigChar F] (env : Env F G1 G2 Gt) (uni : List Str)
    (t₁ t₁' : Tape F G1 G2 Gt) (pk : PublicKey F Gt) (msk : MasterKey F Gt)
    (hsetup : setup uni t₁ = .ok ((pk, msk), t₁'))
    (t₂ t₂' : Tape F G1 G2 Gt) (sk : SecretKey F Gt)
    (hkey : keygen msk (chars% "\"A\" or \"B\"") .human t₂ = .ok (sk, t₂')) :
    (∀ ct : Ciphertext F Gt, ['A'] ∈ ct.attributes.map (·.name) → ['A'] ∉ uni → decrypt env sk ct = .panic) ∧
    (∀ (x : F) (data : Bytes), decrypt env sk ⟨[⟨['A'], some (.priv x)⟩], data⟩ = .panic) := by
  have key : ∀ ct : Ciphertext F Gt, ['A'] ∈ ct.attributes.map (·.name) → (['A'] ∉ uni ∨ ¬ Readable ct ['A']) →
      decrypt env sk ct = .panic := by
    intro ct ha h
    refine (abort_reach env uni t₁ t₁' pk msk hsetup _ _ (.gate .or [.leaf ['A'] 2, .leaf ['B'] 9]) denotes_ab
      t₂ t₂' sk hkey ct (Wide.reach _ _ (by simp [Pol.Wide]))).2 ?_
    have hs : Pol.sat (ct.attributes.map (·.name)) (.leaf ['A'] 2) = true := by simpa using ha
    refine ⟨by simpa using Or.inl ha, Or.inl ⟨(['A'], 2), ?_, Or.inr h⟩⟩
    simp only [pick, pickFirst, hs, if_true]
    simp [ha]
  refine ⟨fun ct ha hu => key ct ha (Or.inl hu), fun x data => key _ (by simp) (Or.inr ?_)⟩
  rintro ⟨a, g, ha, hg⟩
  simp only [beq_self_eq_true, List.find?_cons_of_pos, Option.some.injEq] at ha
  subst ha
  simp at hg

/-- A key and a ciphertext meeting the hypotheses of the two theorems. -/
example : ∃ (pk pk' : PublicKey Fr Fr) (msk msk' : MasterKey Fr Fr) (sk sk' : SecretKey Fr Fr)
    (ct : Ciphertext Fr Fr) (t t' s s' : Tape Fr Fr Fr Fr), setup [['A'], ['B']] toyTape = .ok ((pk, msk), t) ∧
    keygen msk (chars% "\"A\" or \"B\"") .human toyTape = .ok (sk, t') ∧
    setup [['B']] toyTape = .ok ((pk', msk'), s) ∧
    keygen msk' (chars% "\"A\" or \"B\"") .human toyTape = .ok (sk', s') ∧
    ['A'] ∈ ct.attributes.map (·.name) ∧ (∀ a ∈ ct.attributes, ∃ g, a.node = some (.pub g)) ∧ 12 ≤ ct.ct.length := by
  have h : (do
    let x ← setup [['A'], ['B']] toyTape
    let y ← keygen x.1.2 (chars% "\"A\" or \"B\"") .human toyTape
    let x' ← setup [['B']] toyTape
    let y' ← keygen x'.1.2 (chars% "\"A\" or \"B\"") .human toyTape
    .ok (y.1.du.length, y'.1.du.length) : Res (ℕ × ℕ)) = .ok (2, 1) := by decide +kernel
  simp only [Res.bind_eq_ok] at h
  obtain ⟨⟨⟨pk, msk⟩, t1⟩, h1, ⟨sk, t2⟩, h2, ⟨⟨pk', msk'⟩, t3⟩, h3, ⟨sk', t4⟩, h4, _⟩ := h
  exact ⟨pk, pk', msk, msk', sk, sk', ⟨[⟨['A'], some (.pub 1)⟩], List.replicate 12 0⟩, t1, t2, t3, t4, h1, h2, h3, h4,
    by simp, by simp, by simp⟩

end Yct14

namespace Bdabe

/-- Exact condition for a stored text that is accepted. -/
theorem abort_denotes (env : Env F G1 G2 Gt) (one : G1 × G2) (sk : UserKey G1 G2) (ct : Ciphertext G1 G2 Gt) (p : Pol)
    (hp : Denotes ct.policy.1 ct.policy.2 p) :
    decrypt env one sk ct = .panic ↔ sk.skA.map (·.attr) ≠ [] ∧ p.sat (sk.skA.map (·.attr)) = true ∧ ct.ct.length < 12 := by
  have hp' : parse ct.policy.1 ct.policy.2 = .ok p.toValue := hp
  cases ht : traversePolicy (sk.skA.map (·.attr)) p.toValue .leaf with
  | false =>
    simp only [decrypt, hp', Res.ok_bind, ht, if_true, reduceCtorEq, false_iff]
    intro h
    rw [(traverse_true _ p .leaf).2 ⟨h.1, h.2.1⟩] at ht
    cases ht
  | true =>
    have h := (traverse_true _ p .leaf).1 ht
    simp only [decrypt, hp', Res.ok_bind, ht, Bool.true_eq_false, if_false, decryptSymmetric_panic, h, true_and, ne_eq,
      not_false_eq_true]

/-- **C65, BDABE.** For every key and every ciphertext, with any stored text: `decrypt` panics exactly if the parser does, or
the key has attributes, they satisfy the policy, and the payload has less than 12 bytes. -/
theorem C65_bdabe_abort_iff (env : Env F G1 G2 Gt) (one : G1 × G2) (sk : UserKey G1 G2) (ct : Ciphertext G1 G2 Gt) :
    decrypt env one sk ct = .panic ↔ parse ct.policy.1 ct.policy.2 = .panic ∨ ∃ p, Denotes ct.policy.1 ct.policy.2 p ∧
      sk.skA.map (·.attr) ≠ [] ∧ p.sat (sk.skA.map (·.attr)) = true ∧ ct.ct.length < 12 :=
  abort_split (fun h => by simp [decrypt, h]) (fun h => by simp [decrypt, h]) fun p hp => abort_denotes env one sk ct p hp

/-- **C65, BDABE, partial.** A ciphertext of any origin with a payload of at least 12 bytes and an accepted policy never
aborts the decryption. (Full claim: every ciphertext; false, see `C65_violated_bdabe`.) -/
theorem C65_bdabe_no_abort_partial (env : Env F G1 G2 Gt) (one : G1 × G2) (sk : UserKey G1 G2) (ct : Ciphertext G1 G2 Gt)
    (p : Pol) (hp : Denotes ct.policy.1 ct.policy.2 p) (hl : 12 ≤ ct.ct.length) :
    decrypt env one sk ct ≠ .panic := by
  rw [ne_eq, abort_denotes env one sk ct p hp]
  omega

/-- **C65 is violated in BDABE.** For every key with the attribute `A` there is a ciphertext that aborts the
decryption. -/
theorem C65_violated_bdabe (env : Env F G1 G2 Gt) (one : G1 × G2) (sk : UserKey G1 G2)
    (ha : ['A'] ∈ sk.skA.map (·.attr)) :
    decrypt env one sk ⟨(chars% "\"A\" or \"B\"", .human), [], []⟩ = .panic := by
  refine (abort_denotes env one sk _ (.gate .or [.leaf ['A'] 2, .leaf ['B'] 9]) denotes_ab).2 ?_
  exact ⟨List.ne_nil_of_mem ha, by simpa using Or.inl ha, by simp⟩

/-- A policy meeting the hypotheses of `C65_bdabe_no_abort_partial`. -/
example : ∃ p, Denotes (chars% "\"A\" or \"B\"") .human p ∧ p.Wide ∧ p.sat [['A']] = true ∧
    12 ≤ (List.replicate 12 (0 : UInt8)).length :=
  ⟨.gate .or [.leaf ['A'] 2, .leaf ['B'] 9], rfl, by simp [Pol.Wide], by simp, by simp⟩

end Bdabe

namespace Mke08

/-- Exact condition for a stored text that is accepted. -/
theorem abort_denotes (env : Env F G1 G2 Gt) (one : G1 × G2) (sk : UserKey G1 G2) (ct : Ciphertext G1 G2 Gt) (p : Pol)
    (hp : Denotes ct.policy.1 ct.policy.2 p) :
    decrypt env one sk ct = .panic ↔ sk.skA.map (·.attr) ≠ [] ∧ p.sat (sk.skA.map (·.attr)) = true ∧ ct.ct.length < 12 := by
  have hp' : parse ct.policy.1 ct.policy.2 = .ok p.toValue := hp
  cases ht : traversePolicy (sk.skA.map (·.attr)) p.toValue .leaf with
  | false =>
    simp only [decrypt, hp', Res.ok_bind, ht, if_true, reduceCtorEq, false_iff]
    intro h
    rw [(traverse_true _ p .leaf).2 ⟨h.1, h.2.1⟩] at ht
    cases ht
  | true =>
    have h := (traverse_true _ p .leaf).1 ht
    simp only [decrypt, hp', Res.ok_bind, ht, Bool.true_eq_false, if_false, decryptSymmetric_panic, h, true_and, ne_eq,
      not_false_eq_true]

/-- **C65, MKE08.** For every key and every ciphertext, with any stored text: `decrypt` panics exactly if the parser does, or
the key has attributes, they satisfy the policy, and the payload has less than 12 bytes. -/
theorem C65_mke08_abort_iff (env : Env F G1 G2 Gt) (one : G1 × G2) (sk : UserKey G1 G2) (ct : Ciphertext G1 G2 Gt) :
    decrypt env one sk ct = .panic ↔ parse ct.policy.1 ct.policy.2 = .panic ∨ ∃ p, Denotes ct.policy.1 ct.policy.2 p ∧
      sk.skA.map (·.attr) ≠ [] ∧ p.sat (sk.skA.map (·.attr)) = true ∧ ct.ct.length < 12 :=
  abort_split (fun h => by simp [decrypt, h]) (fun h => by simp [decrypt, h]) fun p hp => abort_denotes env one sk ct p hp

/-- **C65, MKE08, partial.** A ciphertext of any origin with a payload of at least 12 bytes and an accepted policy never
aborts the decryption. (Full claim: every ciphertext; false, see `C65_violated_mke08`.) -/
theorem C65_mke08_no_abort_partial (env : Env F G1 G2 Gt) (one : G1 × G2) (sk : UserKey G1 G2) (ct : Ciphertext G1 G2 Gt)
    (p : Pol) (hp : Denotes ct.policy.1 ct.policy.2 p) (hl : 12 ≤ ct.ct.length) :
    decrypt env one sk ct ≠ .panic := by
  rw [ne_eq, abort_denotes env one sk ct p hp]
  omega

/-- **C65 is violated in MKE08.** For every key with the attribute `A` there is a ciphertext that aborts the
decryption. -/
theorem C65_violated_mke08 (env : Env F G1 G2 Gt) (one : G1 × G2) (sk : UserKey G1 G2)
    (ha : ['A'] ∈ sk.skA.map (·.attr)) :
    decrypt env one sk ⟨(chars% "\"A\" or \"B\"", .human), [], []⟩ = .panic := by
  refine (abort_denotes env one sk _ (.gate .or [.leaf ['A'] 2, .leaf ['B'] 9]) denotes_ab).2 ?_
  exact ⟨List.ne_nil_of_mem ha, by simpa using Or.inl ha, by simp⟩

/-- A policy meeting the hypotheses of `C65_mke08_no_abort_partial`. -/
example : ∃ p, Denotes (chars% "\"A\" or \"B\"") .human p ∧ p.Wide ∧ p.sat [['A']] = true ∧
    12 ≤ (List.replicate 12 (0 : UInt8)).length :=
  ⟨.gate .or [.leaf ['A'] 2, .leaf ['B'] 9], rfl, by simp [Pol.Wide], by simp, by simp⟩

end Mke08

end Rabe
