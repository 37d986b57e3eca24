import Verif.Model.TestsUtils
import Verif.Props.Aes
import Verif.Props.Parser
import Verif.Props.Recover
import Verif.Props.Tests

/-!
# Property C108: the unit tests of the utilities

For all random numbers, group elements, keys and plaintexts.
-/

namespace Rabe

set_option linter.unusedSectionVars false

variable {F G1 G2 Gt : Type} [Field F] [DecidableEq F] [AddCommGroup G1] [Module F G1]
  [AddCommGroup G2] [Module F G2] [AddCommGroup Gt] [Module F Gt]

/-- The policy that is one gate over leaves. -/
def Pol.flat (op : Op) (ls : List (Str × ℕ)) : Pol := .gate op (ls.map fun l => .leaf l.1 l.2)

theorem flat_leaves (op : Op) (ls : List (Str × ℕ)) : (Pol.flat op ls).leaves = ls := by
  rw [Pol.flat, Pol.leaves_gate, List.flatMap_map]
  induction ls with
  | nil => rfl
  | cons l ls _ => simp

theorem flat_shareVals (op : Op) (ls : List (Str × ℕ)) (σ : F) (ω : ℕ → F) :
    shareVals (.flat op ls) σ ω = (List.range ls.length).map fun i => gateShare op ls.length σ ω (i + 1) := by
  have : ∀ (ls : List (Str × ℕ)) (q : ℕ → F) (i : ℕ) (ω : ℕ → F),
      shareValsL (ls.map fun l => .leaf l.1 l.2) q i ω = (List.range ls.length).map fun j => q (i + j + 1) := by
    intro ls
    induction ls with
    | nil => intro q i ω; simp [shareValsL]
    | cons l ls ih =>
      intro q i ω
      simp only [List.map_cons, shareValsL, shareVals, ih, List.length_cons, List.range_succ_eq_map, List.map_map]
      simp only [List.singleton_append, Nat.add_zero, List.cons.injEq, true_and]
      refine List.map_congr_left fun j _ => ?_
      simp only [Function.comp_apply]
      congr 1
      omega
  rw [Pol.flat, shareVals, this, List.length_map]
  simp

/-- Share number zero is the secret. -/
theorem gateShare_zero (op : Op) (n : ℕ) (σ : F) (ω : ℕ → F) : gateShare op n σ ω 0 = σ := by
  rw [gateShare, Nat.cast_zero, polynomial_head_zero]

theorem genShares_eq (op : Op) (n : ℕ) (hn : 1 ≤ n) (σ : F) (ω : ℕ → F) :
    (genShares σ (thr op n) n ω).1 = σ :: (List.range n).map fun i => gateShare op n σ ω (i + 1) := by
  have hk : thr op n ≤ n := by cases op <;> simp [thr, hn]
  simp only [genShares, hk, if_true, List.range_succ_eq_map, List.map_cons, List.map_map, List.cons.injEq]
  exact ⟨gateShare_zero op n σ ω, rfl⟩

/-- **C108, the tests of secret sharing, conjunctions.** `gen_shares` with as many shares needed as there are gives the secret and then
shares from all of which `recover_secret` returns the secret, under every policy that is an AND of as many attributes. -/
theorem C108_and_gate [BigChar F] (text : Str) (hl : text.length < 2 ^ 64) (ls : List (Str × ℕ)) (hn : 1 ≤ ls.length)
    (hd : Denotes text .json (.flat .and ls)) (secret : F) (ω : ℕ → F) :
    ∃ xs, (genShares secret ls.length ls.length ω).1 = secret :: xs ∧ xs.length = ls.length ∧ recoverSecret xs text = .ok secret := by
  refine ⟨_, genShares_eq .and ls.length hn secret ω, by simp, ?_⟩
  obtain ⟨sh, ω', h1, h2⟩ := C64_conjunction_partial text _ hd hl (by
    simp only [Pol.AndOnly, Pol.flat, Pol.arity_gate, List.length_map]
    refine ⟨⟨trivial, hn⟩, fun c hc => ?_⟩
    obtain ⟨l, -, rfl⟩ := List.mem_map.1 hc
    simp) secret ω
  rw [genSharesPolicy_eq] at h1
  cases h1
  rwa [shares, List.map_snd_zip (by simp [shareVals_length]), flat_shareVals] at h2

/-- **C108, the tests of secret sharing, disjunctions.** `gen_shares` with one share needed gives the secret and then shares from any
one of which `recover_secret` returns the secret, under every policy that is an OR of as many attributes. -/
theorem C108_or_gate (text : Str) (ls : List (Str × ℕ)) (hn : 1 ≤ ls.length) (hd : Denotes text .json (.flat .or ls))
    (secret : F) (ω : ℕ → F) :
    ∃ xs, (genShares secret 1 ls.length ω).1 = secret :: xs ∧ xs.length = ls.length ∧
      ∀ x ∈ xs, recoverSecret [x] text = .ok secret := by
  refine ⟨_, genShares_eq .or ls.length hn secret ω, by simp, ?_⟩
  intro x hx
  obtain ⟨i, -, rfl⟩ := List.mem_map.1 hx
  rw [gateShare_or, recoverSecret_eq hd, flat_leaves, if_pos (by simpa using hn)]
  match ls, hn with
  | l :: ls, _ => simp [Pol.flat, coeffVals, coeffValsL, gateCoeff]

/-- **C108, the test `test_gen_shares_json`.** With every text in place of the fixed policy it ends normally, whatever the random
numbers, unless parsing the text aborts: there are as many shares as coefficients. -/
theorem C108_gen_shares (policy : Str) (s : Tape F G1 G2 Gt) :
    (∃ s', testGenShares policy s = .ok ((), s')) ↔ parse policy .json ≠ .panic := by
  simp only [testGenShares, RM.bind_apply, RM.genFr]
  cases hp : parse policy .json with
  | panic => simp [RM.lift]
  | err => simp
  | ok v =>
    obtain ⟨p, rfl, -⟩ := parse_ok hp
    have e : (coeffs p (1 : F)).length = p.leaves.length := by simp [coeffs, coeffVals_length]
    have e' : ∀ (σ : F) ω, (shares p σ ω).length = p.leaves.length := by simp [shares, shareVals_length]
    simp [RM.bind_apply, RM.liftFr, genSharesPolicy_eq, calcCoefficients_eq, RM.lift, assertSame, e, e']

/-- The test itself, with the policy it uses. -/
theorem C108_gen_shares_test (s : Tape F G1 G2 Gt) : ∃ s', testGenShares
    (chars% "{\"name\": \"and\", \"children\": [{\"name\": \"A\"}, {\"name\": \"B\"}, {\"name\": \"C\"}, {\"name\": \"D\"}]}") s = .ok ((), s') := by
  rw [C108_gen_shares, show parse _ _ = _ from denotes_of_same (p := .gate .and [.leaf ['A'] 40, .leaf ['B'] 55, .leaf ['C'] 70, .leaf ['D'] 85])
    (by decide +kernel)]
  simp

theorem liftFr_shares (secret : F) (k n : ℕ) (s : Tape F G1 G2 Gt) :
    ∃ s', RM.liftFr (fun ω => .ok (genShares secret k n ω)) s = .ok ((genShares secret k n s.fr).1, s') := ⟨_, rfl⟩

/-- **C108, the tests `test_secret_sharing_or` and `test_secret_sharing_and`.** They end normally, whatever the random numbers. -/
theorem C108_sharing [BigChar F] (s : Tape F G1 G2 Gt) :
    (∃ s', testSharingOr s = .ok ((), s')) ∧ ∃ s', testSharingAnd s = .ok ((), s') := by
  constructor
  · obtain ⟨secret, t, h1⟩ : ∃ a t, RM.genFr s = .ok (a, t) := ⟨_, _, rfl⟩
    obtain ⟨t', h2⟩ := liftFr_shares secret 1 2 t
    obtain ⟨xs, e, hl, hx⟩ := C108_or_gate (chars% "{\"name\":\"or\", \"children\": [{\"name\": \"A\"}, {\"name\": \"B\"}]}")
      [(['A'], 38), (['B'], 53)] (by simp) (denotes_of_same (by decide +kernel)) secret t.fr
    match xs, hl with
    | [x, y], _ =>
      simp only [List.length_cons, List.length_nil, Nat.zero_add, Nat.reduceAdd] at e
      rw [e] at h2
      exact ⟨t', by simp [testSharingOr, RM.bind_apply, h1, h2, RM.lift, hx x (by simp), assertSame]⟩
  · obtain ⟨secret, t, h1⟩ : ∃ a t, RM.genFr s = .ok (a, t) := ⟨_, _, rfl⟩
    obtain ⟨t', h2⟩ := liftFr_shares secret 2 2 t
    obtain ⟨xs, e, hl, hx⟩ := C108_and_gate (chars% "{\"name\": \"and\", \"children\": [{\"name\": \"A\"}, {\"name\": \"B\"}]}")
      (by decide +kernel) [(['A'], 40), (['B'], 55)] (by simp) (denotes_of_same (by decide +kernel)) secret t.fr
    match xs, hl with
    | [x, y], _ =>
      simp only [List.length_cons, List.length_nil, Nat.zero_add, Nat.reduceAdd] at e
      rw [e] at h2
      exact ⟨t', by simp [testSharingAnd, RM.bind_apply, h1, h2, RM.lift, hx, assertSame]⟩

/-- **C108, the test of the symmetric encryption.** It ends normally for every key, every accepted plaintext and all random numbers. -/
theorem C108_aes (env : Env F G1 G2 Gt) (key : Gt) (pt : Bytes) (ha : Accepts env pt) (s : Tape F G1 G2 Gt) :
    ∃ s', testAes env key pt s = .ok ((), s') := by
  rcases C23_encrypt_total env key pt s with ⟨⟨c, t⟩, h⟩ | h
  · exact ⟨t, by simp [testAes, RM.bind_apply, orPanic_ok h, (C23_framing_lossless env key pt c s t h).1, assertPlain_ok]⟩
  · have := ha (env.kdf key) ((List.range 12).map s.byte)
    obtain ⟨c, hc⟩ := Option.isSome_iff_exists.1 this
    simp [encryptSymmetric, RM.bind_apply, RM.genBytes, hc] at h

theorem fromString_length {text : Str} {p : Pol} (hp : Denotes text .json p) {pks : List (PubAttr G1 G2 Gt)} {n : ℕ}
    (h : (dnf pks p.toValue [] 0 none).2 = true) (hn : (dnf pks p.toValue [] 0 none).1.length = n) :
    ∃ l, DnfPolicy.fromString text pks .json = .ok l ∧ l.length = n := by
  refine ⟨_, by rw [DnfPolicy.fromString, show parse text .json = _ from hp, Res.ok_bind, jsonToDnf, if_pos h], ?_⟩
  rw [(sortTerms_perm _).length_eq, hn]

/-- **C108, the test of the disjunctive form.** The numbers of terms are those of the test, whatever the elements of the public keys. -/
theorem C108_dnf (k1 : Str → G1) (k2 : Str → G2) (k3 : Str → Gt) (s : Tape F G1 G2 Gt) : testDnf k1 k2 k3 s = .ok ((), s) := by
  obtain ⟨l1, e1, n1⟩ := fromString_length
    (text := chars% "{\"name\": \"or\", \"children\": [{\"name\": \"and\", \"children\": [{\"name\": \"A\"}, {\"name\": \"B\"}]}, {\"name\": \"and\", \"children\":  [{\"name\": \"A\"}, {\"name\": \"C\"}]}]}")
    (p := .gate .or [.gate .and [.leaf ['A'] 68, .leaf ['B'] 83], .gate .and [.leaf ['A'] 130, .leaf ['C'] 145]])
    (denotes_of_same (by decide +kernel))
    (pks := [['A'], ['B'], ['C'], ['D']].map fun a => (⟨a, k1 a, k2 a, k3 a⟩ : Bdabe.PublicAttributeKey G1 G2 Gt).view) (n := 3)
    (by simp [Pol.toValue, Pol.toValueL, Op.toType, dnf, dnfOr, dnfAnd])
    (by simp [Pol.toValue, Pol.toValueL, Op.toType, dnf, dnfOr, dnfAnd, dnfLeafStep, Bdabe.PublicAttributeKey.view])
  obtain ⟨l2, e2, n2⟩ := fromString_length
    (text := chars% "{\"name\": \"and\", \"children\": [{\"name\": \"C\"}, {\"name\": \"D\"}]}")
    (p := .gate .and [.leaf ['C'] 40, .leaf ['D'] 55]) (denotes_of_same (by decide +kernel))
    (pks := [['A'], ['B'], ['C'], ['D']].map fun a => (⟨a, k1 a, k2 a, k3 a⟩ : Bdabe.PublicAttributeKey G1 G2 Gt).view) (n := 1)
    (by simp [Pol.toValue, Pol.toValueL, Op.toType, dnf, dnfAnd])
    (by simp [Pol.toValue, Pol.toValueL, Op.toType, dnf, dnfAnd, dnfLeafStep, Bdabe.PublicAttributeKey.view])
  obtain ⟨l3, e3, n3⟩ := fromString_length
    (text := chars% "{\"name\": \"or\", \"children\": [{\"name\": \"C\"}, {\"name\": \"and\",  \"children\": [{\"name\": \"A\"}, {\"name\": \"C\"}]}, {\"name\" :\"and\",  \"children\": [{\"name\": \"A\"}, {\"name\": \"D\"}]}]}")
    (p := .gate .or [.leaf ['C'] 39, .gate .and [.leaf ['A'] 84, .leaf ['C'] 99], .gate .and [.leaf ['A'] 146, .leaf ['D'] 161]])
    (denotes_of_same (by decide +kernel))
    (pks := [['A'], ['B'], ['C'], ['D']].map fun a => (⟨a, k1 a, k2 a, k3 a⟩ : Bdabe.PublicAttributeKey G1 G2 Gt).view) (n := 5)
    (by simp [Pol.toValue, Pol.toValueL, Op.toType, dnf, dnfOr, dnfAnd])
    (by simp [Pol.toValue, Pol.toValueL, Op.toType, dnf, dnfOr, dnfAnd, dnfLeafStep, Bdabe.PublicAttributeKey.view])
  simp only [testDnf, RM.bind_apply, e1, e2, e3, RM.lift, Res.unwrap, Res.ok_bind, assertSame, n1, n2, n3, if_true]

/-- The hypotheses hold: the tests in the toy environment, and an AND of three attributes. -/
example : (∃ s', testSharingAnd zeroTape = .ok ((), s')) ∧
    ∃ s', testAes toyEnv 5 [7, 8] zeroTape = .ok ((), s') :=
  ⟨(C108_sharing _).2, C108_aes toyEnv 5 [7, 8] (toy_accepts _) _⟩

example (secret : Fr) (ω : ℕ → Fr) : ∃ xs, (genShares secret 3 3 ω).1 = secret :: xs ∧ xs.length = 3 ∧
    recoverSecret xs (chars% "{\"name\": \"and\", \"children\": [{\"name\": \"A\"}, {\"name\": \"B\"}, {\"name\": \"C\"}]}") = .ok secret :=
  C108_and_gate _ (by decide +kernel) [(['A'], 40), (['B'], 55), (['C'], 70)] (by simp) (denotes_of_same (by decide +kernel)) secret ω

example (secret : Fr) (ω : ℕ → Fr) : ∃ xs, (genShares secret 1 2 ω).1 = secret :: xs ∧ xs.length = 2 ∧
    ∀ x ∈ xs, recoverSecret [x] (chars% "{\"name\":\"or\", \"children\": [{\"name\": \"A\"}, {\"name\": \"B\"}]}") = .ok secret :=
  C108_or_gate _ [(['A'], 38), (['B'], 53)] (by simp) (denotes_of_same (by decide +kernel)) secret ω

/-- Parsing aborts for a name that is a number. -/
example (s : Tape F G1 G2 Gt) : ¬ ∃ s', testGenShares (chars% "{\"name\": 5}") s = .ok ((), s') := by
  rw [C108_gen_shares, C02_violated.2]
  simp

end Rabe
