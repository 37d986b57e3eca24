import Verif.Model.Tests
import Verif.Model.Bdabe
import Verif.Model.Recover

/-!
# The unit tests of the utilities that draw random numbers or use group elements

As in `Verif.Model.Tests`: each test is a program.
-/

namespace Rabe

variable {F G1 G2 Gt : Type} [Field F] [DecidableEq F] [AddCommGroup G1] [Module F G1]
  [AddCommGroup G2] [Module F G2] [AddCommGroup Gt] [Module F Gt]

/-- `assert!(x == y)`, e.g. `/repo/src/utils/secretsharing/mod.rs:243`. -/
def assertSame {α : Type} [DecidableEq α] (x y : α) : RM F G1 G2 Gt Unit := RM.lift (if x = y then .ok () else .panic)

/-- `test_secret_sharing_or`, `/repo/src/utils/secretsharing/mod.rs:229-244`. -/
def testSharingOr : RM F G1 G2 Gt Unit := do
  let secret ← RM.genFr
  let shares ← RM.liftFr (fun ω => .ok (genShares secret 1 2 ω))
  let k ← RM.lift (Res.unwrapOption shares[0]?)
  let s1 ← RM.lift (Res.unwrapOption shares[1]?)
  let r ← RM.lift (recoverSecret [s1] (chars% "{\"name\":\"or\", \"children\": [{\"name\": \"A\"}, {\"name\": \"B\"}]}"))
  assertSame k r

/-- `test_secret_sharing_and`, `/repo/src/utils/secretsharing/mod.rs:264-283`. -/
def testSharingAnd : RM F G1 G2 Gt Unit := do
  let secret ← RM.genFr
  let shares ← RM.liftFr (fun ω => .ok (genShares secret 2 2 ω))
  let k ← RM.lift (Res.unwrapOption shares[0]?)
  let s1 ← RM.lift (Res.unwrapOption shares[1]?)
  let s2 ← RM.lift (Res.unwrapOption shares[2]?)
  let r ← RM.lift (recoverSecret [s1, s2] (chars% "{\"name\": \"and\", \"children\": [{\"name\": \"A\"}, {\"name\": \"B\"}]}"))
  assertSame k r

/-- `test_gen_shares_json`, `/repo/src/utils/secretsharing/mod.rs:247-261`; the policy text is a parameter. A text that is not accepted
is reported and the test ends normally. -/
def testGenShares (policy : Str) : RM F G1 G2 Gt Unit := do
  let secret ← RM.genFr
  match parse policy .json with
  | .ok v =>
      let o ← RM.liftFr (genSharesPolicy v secret none)
      let shares ← RM.lift (Res.unwrapOption o)
      let c ← RM.lift (calcCoefficients v (some (1 : F)) [] none)
      let coeff ← RM.lift (Res.unwrapOption c)
      assertSame coeff.length shares.length
  | .err => pure ()
  | .panic => RM.lift .panic

/-- `test_dnf_from`, second part, `/repo/src/utils/policy/dnf.rs:269-305`. The elements of the public keys, the generators in the test,
are parameters. -/
def testDnf (k1 : Str → G1) (k2 : Str → G2) (k3 : Str → Gt) : RM F G1 G2 Gt Unit := do
  let pks := [['A'], ['B'], ['C'], ['D']].map fun a => (⟨a, k1 a, k2 a, k3 a⟩ : Bdabe.PublicAttributeKey G1 G2 Gt).view
  let p1 ← RM.lift (Res.unwrap (DnfPolicy.fromString (chars% "{\"name\": \"or\", \"children\": [{\"name\": \"and\", \"children\": [{\"name\": \"A\"}, {\"name\": \"B\"}]}, {\"name\": \"and\", \"children\":  [{\"name\": \"A\"}, {\"name\": \"C\"}]}]}") pks .json))
  let p2 ← RM.lift (Res.unwrap (DnfPolicy.fromString (chars% "{\"name\": \"and\", \"children\": [{\"name\": \"C\"}, {\"name\": \"D\"}]}") pks .json))
  let p3 ← RM.lift (Res.unwrap (DnfPolicy.fromString (chars% "{\"name\": \"or\", \"children\": [{\"name\": \"C\"}, {\"name\": \"and\",  \"children\": [{\"name\": \"A\"}, {\"name\": \"C\"}]}, {\"name\" :\"and\",  \"children\": [{\"name\": \"A\"}, {\"name\": \"D\"}]}]}") pks .json))
  assertSame p1.length 3
  assertSame p2.length 1
  assertSame p3.length 5

/-- `correctness_test1`, `/repo/src/utils/aes/mod.rs:60-68`; plaintext and key, in the model a group element, are parameters. -/
def testAes (env : Env F G1 G2 Gt) (key : Gt) (plaintext : Bytes) : RM F G1 G2 Gt Unit := do
  let c ← (encryptSymmetric env key plaintext).orPanic
  assertPlain (decryptSymmetric env key c) plaintext

end Rabe
