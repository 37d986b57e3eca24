import Verif.Props.Coalition

/-!
# C92, AW11: dishonest authorities open only what their own attributes and those of their users allow

The computation of `coalition_names` is chosen after all secrets but the varied one. So it may use the secrets of the dishonest
authorities; the varied one belongs to an honest authority.
-/

set_option linter.unusedSectionVars false

namespace Rabe

variable {F G1 G2 Gt : Type} [Field F] [DecidableEq F] [AddCommGroup G1] [Module F G1]
  [AddCommGroup G2] [Module F G2] [AddCommGroup Gt] [Module F Gt]

namespace Aw11

/-- The attributes of the authorities with the numbers `bad`, as `authgen` names them. -/
def attributesOf (cm : CaseMap) (auths : List (AuthJob F G1 G2 Gt)) (bad : List ℕ) : List Str :=
  bad.flatMap fun q => match auths[q]? with
    | some A => A.attrs.map cm.upper
    | none => []

open Classical in
/-- **C92, AW11.** Some authorities are dishonest: with any number of users they do a computation that may depend on their own
secrets. If the attributes of the dishonest authorities together with those of the users do not satisfy the policy (with
every name replaced by the name under which encryption looks for the public key), there is an attribute of an honest
authority such that the computation gives the session element for at most the fraction `2 / q` of the choices of the random
numbers of the encryption, the session element and the secret of this attribute. -/
theorem C92_dishonest_lookup [BigChar F] [Fintype F] [Fintype Gt] (cm : CaseMap) (env : Env F G1 G2 Gt)
    (t : Tape F G1 G2 Gt) (hpair : env.pair (t.g1 0) (t.g2 0) ≠ 0) (auths : List (AuthJob F G1 G2 Gt))
    (bad : List ℕ) (hbad : ∀ q ∈ bad, q < auths.length)
    (holders : List Holder) (job : CpJob F G1 G2 Gt) (p : Pol) (hp : Denotes job.text job.lang p)
    (hlen : job.text.length < 2 ^ 64)
    (hsat : (rename (fun s => removeIndex (cm.upper s)) p).sat
      ((holders.flatMap fun h => h.requests.map (·.2)) ++ attributesOf cm auths bad) = false)
    (others : List (CpJob F G1 G2 Gt)) (extra : View G1 G2 Gt) (n : ℕ)
    (hn : 1 + draws p + draws p + p.leaves.length ≤ n) (k : Formula F) :
    ∃ q i, q ∉ bad ∧
      (Finset.univ.filter (OpenedByCoalition cm env k t auths holders job others extra q i (n := n))).card ≤
      2 * Fintype.card F ^ n * Fintype.card Gt := by
  obtain ⟨q, i, h1, h2⟩ := coalition_names cm env k t hpair auths holders job p hp hlen _
    (fun h hh r hr => List.mem_append_left _ (List.mem_flatMap.2 ⟨h, hh, List.mem_map_of_mem hr⟩)) hsat others extra n hn
  refine ⟨q, i, fun hq => ?_, h2⟩
  rcases h1 with h1 | ⟨A, s, hA, hs, hnot⟩
  · exact absurd (hbad q hq) (by omega)
  · refine hnot (List.mem_append_right _ (List.mem_flatMap.2 ⟨q, hq, ?_⟩))
    rw [hA]
    exact List.mem_map_of_mem (List.mem_of_getElem? hs)

open Classical in
/-- **C92, AW11, partial: names without underscore.** As `C92_dishonest_lookup`, with the policy read as it is written (in
upper case). (Full claim: for all attribute names; false already without dishonest authorities, see `C84_violated`.) -/
theorem C92_dishonest_partial [BigChar F] [Fintype F] [Fintype Gt] (cm : CaseMap) (env : Env F G1 G2 Gt)
    (t : Tape F G1 G2 Gt) (hpair : env.pair (t.g1 0) (t.g2 0) ≠ 0) (auths : List (AuthJob F G1 G2 Gt))
    (bad : List ℕ) (hbad : ∀ q ∈ bad, q < auths.length)
    (holders : List Holder) (job : CpJob F G1 G2 Gt) (p : Pol) (hp : Denotes job.text job.lang p)
    (hlen : job.text.length < 2 ^ 64) (hu : ∀ l ∈ p.leaves, '_' ∉ l.1)
    (hsat : (rename cm.upper p).sat
      ((holders.flatMap fun h => h.requests.map (·.2)) ++ attributesOf cm auths bad) = false)
    (others : List (CpJob F G1 G2 Gt)) (extra : View G1 G2 Gt) (n : ℕ)
    (hn : 1 + draws p + draws p + p.leaves.length ≤ n) (k : Formula F) :
    ∃ q i, q ∉ bad ∧
      (Finset.univ.filter (OpenedByCoalition cm env k t auths holders job others extra q i (n := n))).card ≤
      2 * Fintype.card F ^ n * Fintype.card Gt := by
  refine C92_dishonest_lookup cm env t hpair auths bad hbad holders job p hp hlen ?_ others extra n hn k
  rw [← hsat]
  congr 1
  refine rename_congr p fun l hl => removeIndex_of_not_mem ?_
  intro hmem
  obtain ⟨c, hc, hc'⟩ := List.mem_flatMap.1 hmem
  exact hu l hl (cm.only_underscore c hc' ▸ hc)

/-- **C92, AW11: which keys a dishonest authority can publish.** In groups generated by the points of the global key, every
list of attributes with any group elements is the output of `authgen` for some random numbers; so the theorems above, which
hold for all of them, cover authorities that do not choose their keys at random. -/
theorem C92_any_key (cm : CaseMap) (env : Env F G1 G2 Gt) (gk : GlobalKey G1 G2)
    (h2 : ∀ x : G2, ∃ c : F, x = c • gk.g2) (ht : ∀ x : Gt, ∃ c : F, x = c • env.pair gk.g1 gk.g2)
    (pk : PublicKey G2 Gt) (hne : pk.attr ≠ []) (hup : ∀ a ∈ pk.attr, ∃ s, cm.upper s = a.name) (t : Tape F G1 G2 Gt) :
    ∃ (A : AuthJob F G1 G2 Gt) (msk : MasterKey F) (u : Tape F G1 G2 Gt),
      authgen cm env gk A.attrs A.tape = .ok (some (pk, msk), u) := by
  have key : ∀ l : List (PubAttr G2 Gt), (∀ a ∈ l, ∃ s, cm.upper s = a.name) →
      ∃ (attrs : List Str) (fr : ℕ → F) (c : List (PubAttr G2 Gt × MskAttr F)) (u : Tape F G1 G2 Gt),
        attrs.length = l.length ∧ RM.mapL (authgenAttr cm env gk) attrs { t with fr } = .ok (c, u) ∧ c.map (·.1) = l := by
    intro l
    induction l with
    | nil => intro _; exact ⟨[], t.fr, [], { t with fr := t.fr }, rfl, rfl, rfl⟩
    | cons a l ih =>
      intro h
      obtain ⟨attrs, fr, c, u, e1, e2, e3⟩ := ih fun b hb => h b (by simp [hb])
      obtain ⟨s, hs⟩ := h a (by simp)
      obtain ⟨α, hα⟩ := ht a.e
      obtain ⟨y, hy⟩ := h2 a.y
      refine ⟨s :: attrs, fun i => if i = 0 then α else if i = 1 then y else fr (i - 2), (a, ⟨cm.upper s, α, y⟩) :: c, u,
        by simp [e1], ?_, by simp [e3]⟩
      show (authgenAttr cm env gk s >>= fun y => RM.mapL (authgenAttr cm env gk) attrs >>= fun ys => pure (y :: ys)) _ = _
      rw [RM.bind_ok]
      refine ⟨(a, ⟨cm.upper s, α, y⟩), { t with fr }, ?_, ?_⟩
      · simp only [authgenAttr, RM.bind_ok, RM.genFr, RM.pure_ok]
        refine ⟨_, _, rfl, _, _, rfl, ?_, ?_⟩
        · show (a, MskAttr.mk (cm.upper s) α y) = (PubAttr.mk (cm.upper s) (α • env.pair gk.g1 gk.g2) (y • gk.g2), _)
          rw [← hα, ← hy, hs]
          rfl
        · congr 1
          funext i
          simp only [dropS]
          rw [if_neg (by omega), if_neg (by omega)]
          congr 1
          omega
      · rw [RM.bind_ok]
        exact ⟨_, _, e2, rfl⟩
  obtain ⟨attrs, fr, c, u, e1, e2, e3⟩ := key pk.attr hup
  refine ⟨⟨attrs, { t with fr }⟩, ⟨c.map (·.2)⟩, u, ?_⟩
  have : attrs.isEmpty = false := by
    cases attrs with
    | nil => exact absurd (List.length_eq_zero_iff.1 e1.symm) hne
    | cons => rfl
  simp only [authgen, this, Bool.false_eq_true, if_false, RM.bind_ok]
  exact ⟨_, _, e2, by rw [e3]; rfl⟩

/-- Example for C92: two authorities, the first one dishonest; its attribute and that of a user do not satisfy a policy that
needs both attributes of the second one. -/
example : toyEnv.pair (toyTape.g1 0) (toyTape.g2 0) ≠ 0 ∧
    Denotes (chars% "\"A\" and \"C\"") .human (.gate .and [.leaf ['A'] 2, .leaf ['C'] 10]) ∧
    attributesOf asciiCase [⟨[['a']], toyTape⟩, ⟨[['b'], ['c']], toyTape⟩] [0] = [['A']] ∧
    (rename asciiCase.upper (.gate .and [.leaf ['A'] 2, .leaf ['C'] 10])).sat ([['B']] ++ [['A']]) = false ∧
    (rename asciiCase.upper (.gate .and [.leaf ['A'] 2, .leaf ['C'] 10])).sat ([['C']] ++ [['A']]) = true :=
  ⟨by decide +kernel, rfl, by decide +kernel, by decide +kernel, by decide +kernel⟩

/-- Example for `C92_any_key`: in the concrete groups every element is a multiple of the generator. -/
example : ∃ gk : GlobalKey Fr Fr, (∀ x : Fr, ∃ c : Fr, x = c • gk.g2) ∧
    ∀ x : Fr, ∃ c : Fr, x = c • toyEnv.pair gk.g1 gk.g2 := by
  refine ⟨⟨1, 1⟩, fun x => ⟨x, by simp⟩, fun x => ⟨x / toyEnv.pair 1 1, ?_⟩⟩
  have : toyEnv.pair (1 : Fr) (1 : Fr) ≠ 0 := by decide +kernel
  rw [smul_eq_mul, div_mul_cancel₀ _ this]

end Aw11
end Rabe
