import Verif.Model.Tests

/-!
# The unit tests of the modules `mke08` and `bdabe`

As in `Verif.Model.Tests`: each test is a program, and the plaintext is a parameter. `one` is as in the two functions `decrypt`.
-/

namespace Rabe

variable {F G1 G2 Gt : Type} [Field F] [DecidableEq F] [AddCommGroup G1] [Module F G1]
  [AddCommGroup G2] [Module F G2] [AddCommGroup Gt] [Module F Gt]

namespace Mke08

/-- What the tests `and` and `or` have in common, `/repo/src/schemes/mke08/mod.rs:501-571`: one attribute of each authority and the
policy are parameters. -/
def testTwo (env : Env F G1 G2 Gt) (one : G1 × G2) (x1 x2 policy : Str) (plaintext : Bytes) : RM F G1 G2 Gt Unit := do
  let x ← setup env
  let sk ← keygen x.1 x.2 (chars% "user1")
  let a1 ← authgen (chars% "auth1")
  let a2 ← authgen (chars% "auth2")
  let pk1 ← RM.lift (Res.unwrap (requestAuthorityPk env x.1 x1 a1))
  let pk2 ← RM.lift (Res.unwrap (requestAuthorityPk env x.1 x2 a2))
  let k1 ← RM.lift (Res.unwrap (requestAuthoritySk env sk.pk x1 a1))
  let k2 ← RM.lift (Res.unwrap (requestAuthoritySk env sk.pk x2 a2))
  let ct ← (encrypt env x.1 [pk1, pk2] policy .json plaintext).orPanic
  assertPlain (decrypt env one { sk with skA := sk.skA ++ [k1] ++ [k2] } ct) plaintext

/-- The test `and`, `/repo/src/schemes/mke08/mod.rs:501-535`. -/
def testAnd (env : Env F G1 G2 Gt) (one : G1 × G2) (plaintext : Bytes) : RM F G1 G2 Gt Unit :=
  testTwo env one (chars% "auth1::A") (chars% "auth2::B")
    (chars% "{\"name\": \"and\", \"children\": [{\"name\": \"auth1::A\"}, {\"name\": \"auth2::B\"}]}") plaintext

/-- The test `or`, `/repo/src/schemes/mke08/mod.rs:537-571`. -/
def testOr (env : Env F G1 G2 Gt) (one : G1 × G2) (plaintext : Bytes) : RM F G1 G2 Gt Unit :=
  testTwo env one (chars% "auth1::C") (chars% "auth2::B")
    (chars% "{\"name\": \"or\", \"children\": [{\"name\": \"auth1::A\"}, {\"name\": \"auth2::B\"}]}") plaintext

/-- The test `or_and`, `/repo/src/schemes/mke08/mod.rs:573-618`. -/
def testOrAnd (env : Env F G1 G2 Gt) (one : G1 × G2) (plaintext : Bytes) : RM F G1 G2 Gt Unit := do
  let x ← setup env
  let sk ← keygen x.1 x.2 (chars% "user1")
  let a1 ← authgen (chars% "auth1")
  let a2 ← authgen (chars% "auth2")
  let pk1 ← RM.lift (Res.unwrap (requestAuthorityPk env x.1 (chars% "auth1::A") a1))
  let pk2 ← RM.lift (Res.unwrap (requestAuthorityPk env x.1 (chars% "auth2::B") a2))
  let pk3 ← RM.lift (Res.unwrap (requestAuthorityPk env x.1 (chars% "auth2::X") a2))
  let k1 ← RM.lift (Res.unwrap (requestAuthoritySk env sk.pk (chars% "auth1::A") a1))
  let k2 ← RM.lift (Res.unwrap (requestAuthoritySk env sk.pk (chars% "auth2::B") a2))
  let k3 ← RM.lift (Res.unwrap (requestAuthoritySk env sk.pk (chars% "auth2::X") a2))
  let ct ← (encrypt env x.1 [pk1, pk2, pk3]
    (chars% "{\"name\": \"or\", \"children\": [{\"name\": \"and\", \"children\": [{\"name\": \"auth1::A\"}, {\"name\": \"auth2::B\"}]}, {\"name\": \"auth2::X\"}]}")
    .json plaintext).orPanic
  assertPlain (decrypt env one { sk with skA := sk.skA ++ [k1] ++ [k2] ++ [k3] } ct) plaintext

end Mke08

namespace Bdabe

/-- What the tests `and`, `or` and `not` have in common, `/repo/src/schemes/bdabe/mod.rs:492-574,625-661`: whether the first authority
creates the user's key, one attribute of each authority and the policy are parameters; the result is that of `decrypt`. -/
def testTwo (env : Env F G1 G2 Gt) (one : G1 × G2) (byFirst : Bool) (x1 x2 policy : Str) (plaintext : Bytes) :
    RM F G1 G2 Gt (Res Bytes) := do
  let x ← setup env
  let a1 ← authgen x.1 x.2 (chars% "aa1")
  let a2 ← authgen x.1 x.2 (chars% "aa2")
  let sk ← keygen x.1 (if byFirst then a1 else a2) (chars% "u1")
  let pk1 ← RM.lift (Res.unwrap (requestAttributePk env x.1 a1 x1))
  let pk2 ← RM.lift (Res.unwrap (requestAttributePk env x.1 a2 x2))
  let k1 ← RM.lift (Res.unwrap (requestAttributeSk env sk.pk a1 x1))
  let k2 ← RM.lift (Res.unwrap (requestAttributeSk env sk.pk a2 x2))
  let ct ← (encrypt env x.1 [pk1, pk2] policy .json plaintext).orPanic
  pure (decrypt env one { sk with skA := sk.skA ++ [k1] ++ [k2] } ct)

/-- The test `and`, `/repo/src/schemes/bdabe/mod.rs:492-535`. -/
def testAnd (env : Env F G1 G2 Gt) (one : G1 × G2) (plaintext : Bytes) : RM F G1 G2 Gt Unit := do
  let r ← testTwo env one true (chars% "aa1::A") (chars% "aa2::B")
    (chars% "{\"name\": \"and\", \"children\": [{\"name\": \"aa1::A\"}, {\"name\": \"aa2::B\"}]}") plaintext
  assertPlain r plaintext

/-- The test `or`, `/repo/src/schemes/bdabe/mod.rs:537-574`. -/
def testOr (env : Env F G1 G2 Gt) (one : G1 × G2) (plaintext : Bytes) : RM F G1 G2 Gt Unit := do
  let r ← testTwo env one false (chars% "aa1::C") (chars% "aa2::B")
    (chars% "{\"name\": \"or\", \"children\": [{\"name\": \"aa1::A\"}, {\"name\": \"aa2::B\"}]}") plaintext
  assertPlain r plaintext

/-- The test `or_and`, `/repo/src/schemes/bdabe/mod.rs:576-623`. The variable for the public key of `aa2::B` is shadowed by that for
`aa3::C`, so `encrypt` does not get the former. -/
def testOrAnd (env : Env F G1 G2 Gt) (one : G1 × G2) (plaintext : Bytes) : RM F G1 G2 Gt Unit := do
  let x ← setup env
  let a1 ← authgen x.1 x.2 (chars% "aa1")
  let a2 ← authgen x.1 x.2 (chars% "aa2")
  let a3 ← authgen x.1 x.2 (chars% "aa3")
  let sk ← keygen x.1 a2 (chars% "u1")
  let pk1 ← RM.lift (Res.unwrap (requestAttributePk env x.1 a1 (chars% "aa1::A")))
  let _ ← RM.lift (Res.unwrap (requestAttributePk env x.1 a2 (chars% "aa2::B")))
  let pk2 ← RM.lift (Res.unwrap (requestAttributePk env x.1 a3 (chars% "aa3::C")))
  let k1 ← RM.lift (Res.unwrap (requestAttributeSk env sk.pk a1 (chars% "aa1::A")))
  let k2 ← RM.lift (Res.unwrap (requestAttributeSk env sk.pk a2 (chars% "aa2::B")))
  let k3 ← RM.lift (Res.unwrap (requestAttributeSk env sk.pk a3 (chars% "aa3::C")))
  let ct ← (encrypt env x.1 [pk1, pk2]
    (chars% "{\"name\": \"or\", \"children\": [{\"name\": \"and\", \"children\": [{\"name\": \"aa3::C\"}, {\"name\": \"aa2::B\"}]}, {\"name\": \"aa1::X\"}]}")
    .json plaintext).orPanic
  assertPlain (decrypt env one { sk with skA := sk.skA ++ [k1] ++ [k2] ++ [k3] } ct) plaintext

/-- The test `not`, `/repo/src/schemes/bdabe/mod.rs:625-661`. -/
def testNot (env : Env F G1 G2 Gt) (one : G1 × G2) (plaintext : Bytes) : RM F G1 G2 Gt Unit := do
  let r ← testTwo env one false (chars% "aa1::A") (chars% "aa2::B")
    (chars% "{\"name\": \"or\", \"children\": [{\"name\": \"aa1::B\"}, {\"name\": \"aa2::A\"}]}") plaintext
  assertErr r

end Bdabe

end Rabe
