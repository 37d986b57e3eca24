import Verif.Model.Tests

/-!
# The unit tests of the modules `ac17`, `lsw` and `yct14`

As in `Verif.Model.Tests`: each test is a program, and the plaintext is a parameter.
-/

namespace Rabe

variable {F G1 G2 Gt : Type} [Field F] [DecidableEq F] [AddCommGroup G1] [Module F G1]
  [AddCommGroup G2] [Module F G2] [AddCommGroup Gt] [Module F Gt]

/-- What the tests that expect the plaintext have in common, e.g. `/repo/src/schemes/lsw/mod.rs:298-314`: attributes and policy are
parameters. -/
def Lsw.test (env : Env F G1 G2 Gt) (attrs : List Str) (policy : Str) (plaintext : Bytes) : RM F G1 G2 Gt Unit := do
  let x ← Lsw.setup env
  let ct ← (Lsw.encrypt env x.1 attrs plaintext).orPanic
  let sk ← (Lsw.keygen env x.1 x.2 policy .json).orPanic
  assertPlain (Lsw.decrypt env sk ct) plaintext

/-- The form of the test that expects a refusal, `/repo/src/schemes/lsw/mod.rs:356-373`. -/
def Lsw.testRefused (env : Env F G1 G2 Gt) (attrs : List Str) (policy : Str) (plaintext : Bytes) : RM F G1 G2 Gt Unit := do
  let x ← Lsw.setup env
  let ct ← (Lsw.encrypt env x.1 attrs plaintext).orPanic
  let sk ← (Lsw.keygen env x.1 x.2 policy .json).orPanic
  assertErr (Lsw.decrypt env sk ct)

/-- The test `and`, `/repo/src/schemes/lsw/mod.rs:298-314`. -/
def Lsw.testAnd (env : Env F G1 G2 Gt) (plaintext : Bytes) : RM F G1 G2 Gt Unit :=
  Lsw.test env [['A'], ['B'], ['C']] (chars% "{\"name\": \"and\", \"children\": [{\"name\": \"C\"}, {\"name\": \"B\"}]}") plaintext

/-- The test `or`, `/repo/src/schemes/lsw/mod.rs:317-333`. -/
def Lsw.testOr (env : Env F G1 G2 Gt) (plaintext : Bytes) : RM F G1 G2 Gt Unit :=
  Lsw.test env [['A'], ['B'], ['C']] (chars% "{\"name\": \"or\", \"children\": [{\"name\": \"X\"}, {\"name\": \"B\"}]}") plaintext

/-- The test `or_and`, `/repo/src/schemes/lsw/mod.rs:336-353`. -/
def Lsw.testOrAnd (env : Env F G1 G2 Gt) (plaintext : Bytes) : RM F G1 G2 Gt Unit :=
  Lsw.test env [['X'], ['Y'], ['Z']]
    (chars% "{\"name\": \"or\", \"children\": [{\"name\": \"A\"}, {\"name\": \"and\", \"children\": [{\"name\": \"Y\"}, {\"name\": \"Z\"}]}]}")
    plaintext

/-- The test `not`, `/repo/src/schemes/lsw/mod.rs:356-373`. -/
def Lsw.testNot (env : Env F G1 G2 Gt) (plaintext : Bytes) : RM F G1 G2 Gt Unit :=
  Lsw.testRefused env [['A'], ['B']] (chars% "{\"name\": \"or\", \"children\": [{\"name\": \"X\"}, {\"name\": \"Y\"}]}") plaintext

/-- The test `or`, `/repo/src/schemes/yct14/mod.rs:373-393`. -/
def Yct14.testOr (env : Env F G1 G2 Gt) (plaintext : Bytes) : RM F G1 G2 Gt Unit := do
  let x ← Yct14.setup [['A'], ['B'], ['C']]
  let ct ← (Yct14.encrypt env x.1 [['A'], ['B'], ['C']] plaintext).orPanic
  let sk ← (Yct14.keygen x.2 (chars% "{\"name\": \"or\", \"children\": [{\"name\": \"A\"}, {\"name\": \"C\"}]}") .json).orPanic
  assertPlain (Yct14.decrypt env sk ct) plaintext

/-- What the key-policy tests `kp_and` and `kp_or` have in common, `/repo/src/schemes/ac17/mod.rs:683-698`, `726-740`. -/
def Ac17.testKp (env : Env F G1 G2 Gt) (attrs : List Str) (policy : Str) (plaintext : Bytes) : RM F G1 G2 Gt Unit := do
  let x ← Ac17.setup env
  let ct ← (Ac17.kpEncrypt env x.1 attrs plaintext).orPanic
  let sk ← (Ac17.kpKeygen env x.2 policy .json).orPanic
  assertPlain (Ac17.kpDecrypt env sk ct) plaintext

/-- The test `kp_and`, `/repo/src/schemes/ac17/mod.rs:683-698`. -/
def Ac17.testKpAnd (env : Env F G1 G2 Gt) (plaintext : Bytes) : RM F G1 G2 Gt Unit :=
  Ac17.testKp env [['A'], ['B']] (chars% "{\"name\": \"and\", \"children\": [{\"name\": \"A\"}, {\"name\": \"B\"}]}") plaintext

/-- The test `kp_or`, `/repo/src/schemes/ac17/mod.rs:726-740`. -/
def Ac17.testKpOr (env : Env F G1 G2 Gt) (plaintext : Bytes) : RM F G1 G2 Gt Unit :=
  Ac17.testKp env [['B']] (chars% "{\"name\": \"or\", \"children\": [{\"name\": \"A\"}, {\"name\": \"B\"}]}") plaintext

/-- The policy of `kp_or_and`, `/repo/src/schemes/ac17/mod.rs:708`. -/
def Ac17.textOrAnd : Str :=
  chars% "{\"name\":\"or\", \"children\": [{\"name\": \"and\", \"children\": [{\"name\": \"A\"}, {\"name\": \"B\"}]}, {\"name\": \"and\", \"children\": [{\"name\": \"C\"}, {\"name\": \"D\"}]}]}"

/-- The test `kp_or_and`, `/repo/src/schemes/ac17/mod.rs:701-723`. -/
def Ac17.testKpOrAnd (env : Env F G1 G2 Gt) (plaintext : Bytes) : RM F G1 G2 Gt Unit := do
  let x ← Ac17.setup env
  let ct ← (Ac17.kpEncrypt env x.1 [['A'], ['B']] plaintext).orPanic
  let sk ← (Ac17.kpKeygen env x.2 Ac17.textOrAnd .json).orPanic
  assertPlain (Ac17.kpDecrypt env sk ct) plaintext
  let ct' ← (Ac17.kpEncrypt env x.1 [['C'], ['D']] plaintext).orPanic
  let sk' ← (Ac17.kpKeygen env x.2 Ac17.textOrAnd .json).orPanic
  assertPlain (Ac17.kpDecrypt env sk' ct') plaintext

/-- The test `kp_not`, `/repo/src/schemes/ac17/mod.rs:743-757`. -/
def Ac17.testKpNot (env : Env F G1 G2 Gt) (plaintext : Bytes) : RM F G1 G2 Gt Unit := do
  let x ← Ac17.setup env
  let ct ← (Ac17.kpEncrypt env x.1 [['C']] plaintext).orPanic
  let sk ← (Ac17.kpKeygen env x.2 (chars% "{\"name\": \"or\", \"children\": [{\"name\": \"A\"}, {\"name\": \"B\"}]}") .json).orPanic
  assertErr (Ac17.kpDecrypt env sk ct)

/-- What the ciphertext-policy tests have in common, e.g. `/repo/src/schemes/ac17/mod.rs:760-774`. -/
def Ac17.testCp (env : Env F G1 G2 Gt) (attrs : List Str) (policy : Str) (plaintext : Bytes) : RM F G1 G2 Gt Unit := do
  let x ← Ac17.setup env
  let ct ← (Ac17.cpEncrypt env x.1 policy plaintext .json).orPanic
  let sk ← (Ac17.cpKeygen env x.2 attrs).orPanic
  assertPlain (Ac17.cpDecrypt env sk ct) plaintext

/-- The test `cp_and`, `/repo/src/schemes/ac17/mod.rs:760-774`. -/
def Ac17.testCpAnd (env : Env F G1 G2 Gt) (plaintext : Bytes) : RM F G1 G2 Gt Unit :=
  Ac17.testCp env [['A'], ['B']] (chars% "{\"name\": \"and\", \"children\": [{\"name\": \"A\"}, {\"name\": \"B\"}]}") plaintext

/-- The test `cp_or`, `/repo/src/schemes/ac17/mod.rs:777-792`. -/
def Ac17.testCpOr (env : Env F G1 G2 Gt) (plaintext : Bytes) : RM F G1 G2 Gt Unit :=
  Ac17.testCp env [['A']] (chars% "{\"name\": \"or\", \"children\": [{\"name\": \"A\"}, {\"name\": \"B\"}, {\"name\": \"C\"}]}") plaintext

/-- The test `cp_or_and_and`, `/repo/src/schemes/ac17/mod.rs:795-809`. -/
def Ac17.testCpOrAndAnd (env : Env F G1 G2 Gt) (plaintext : Bytes) : RM F G1 G2 Gt Unit :=
  Ac17.testCp env [['A'], ['B'], ['C'], ['D']]
    (chars% "{\"name\": \"or\", \"children\": [{\"name\": \"and\", \"children\": [{\"name\": \"A\"}, {\"name\": \"B\"}]}, {\"name\": \"and\", \"children\": [{\"name\": \"C\"}, {\"name\": \"D\"}]}]}")
    plaintext

end Rabe
