# Formal model of `rabe` — design

The subject is the Rust crate in `/repo` (rabe 0.4.2: eight ABE schemes, two policy languages, a
secret-sharing / span-program / DNF layer, binary serialisation) and its console front end `/repo/rabe-console`.
Properties are listed in `properties.jsonl`, their status in `MANIFEST.json`, wrong programs tried against the
theorems in `seeded/LOG.jsonl`.

## 1. Layout of the Lean project

| file or directory | contents |
|---|---|
| `lean/Verif/Prelude.lean` | outcomes `Res` (ok / err / panic), strings, random tape, crypto environment `Env` |
| `lean/Verif/Spec/` | specifications written without the model |
| `lean/Verif/Model/` | the code, function by function, each definition citing file and lines |
| `lean/Verif/Instance/` | the BN254 scalar field, proof that its order is prime, a concrete environment for examples |
| `lean/Verif/Proof/` | supporting lemmas |
| `lean/Verif/Check/` | all 46 unit tests of `/repo`, evaluated on the model by the kernel |
| `lean/Verif/Props/` | the property theorems `Cnn_…`, each beside a concrete case (`example` or `…_witness`) |

Specifications: `Spec/Pol` (access trees, Boolean satisfaction), `Spec/Text` (which tree a text denotes, `Regular`
policies), `Spec/Grammar` (the two policy languages as inductive grammars), `Spec/Print` (printers into both
languages), `Spec/Selection` (minimal authorised sets of leaf positions), `Spec/Generic` (computations with group
operations and pairings).

Model: `Policy` (policy values, tools, serialisers), `Pest` (both parsers), `SecretSharing`, `Msp`, `Dnf`, `Aes`,
`Bsw`, `Ac17`, `Lsw`, `Yct14`, `Aw11`, `Ghw11`, `Bdabe`, `Mke08` (the schemes), `Borsh` and `BorshTypes` (binary
serialisation), `Serde` (the default serialisation), `MspDisplay` (printing span programs), `Recover`
(`recover_secret`), `PestSteps` (the parsers with a count of `node` entries), `Error` (error messages), `Ffi` (the C
interface), `Console` (the command line application on a file system), `Main` (its entry point).

## 2. Modelling decisions

* **Outcomes.** A Rust call yields a value, an `Err`, or a panic (`unwrap` on `None`/`Err`, index out of range,
  slice at a non-boundary, explicit `panic!`). The model returns `Res α := ok a | err | panic`. Error texts are
  dropped. Functions returning `Option` in Rust return `Option` inside `Res`.
* **Scalars and groups.** `Fr` is a field `F` with decidable equality. Theorems that interpolate assume class
  `BigChar`: the numbers `1 … 2^64-1` are non-zero. The real scalar field (`ZMod r`, r the BN254 group order, primality
  proved by a Pratt certificate) is an instance. `G1`, `G2`, `Gt` are `F`-modules, `Gt` written additively (`a*b` in
  Rust is `a+b`, `pow` is `•`, `inverse` is `-`, `Gt::one()` is `0`). `pairing` is an `F`-bilinear map. Theorems
  quantify over every such environment; the environment `F = G1 = G2 = Gt = ZMod r` shows that the assumptions are
  satisfiable and serves for the concrete cases.
* **Hashing.** `sha3_hash_fr` is an arbitrary function `Str → F`; `sha3_hash g s = h(s) • g`, exactly as in
  `src/utils/hash/mod.rs` (`Fr::from_slice` of a 32-byte digest cannot fail in `rabe-bn`: the value is reduced).
  Because the exponent `h(s)` is public, several schemes are malleable (C29, C41, C50, C52).
* **AEAD.** AES-256-GCM and the KDF are parameters; the only assumption is that decryption inverts encryption under
  the same key and nonce.
* **Randomness.** Every draw of `rng.gen()` reads the next element of an explicit tape (one stream per type).
  Theorems quantify over all tapes, hence over all RNG outputs and all interleavings of calls.
* **Strings.** `Str := List Char` (Unicode scalar values). Byte-level facts (`&attr[..1]`, `String` in borsh, files)
  use the UTF-8 encoding. `str::to_uppercase` is a parameter (`CaseMap`): idempotent, compatible with the prefix
  before `_`; digits and `_` are fixed.
* **usize.** Lengths are `Nat`; where the real code needs `len < 2^64` the theorem says so.
* **pest.** Both grammars are transcribed rule by rule into PEG combinators with pest's implicit whitespace/comment
  skipping, committed ordered choice and atomic rules. Columns follow `Pair::line_col().1` (characters since the last
  `\n`, plus one). Recursion is on fuel; the fuel used by the top-level function is proved sufficient.
* **Binary serialisation.** `borsh` writes fields in order, vectors with a 32-bit length, strings as UTF-8. The four
  encoders of `rabe_bn` (scalars, three groups) are parameters. `BorshLaw`: decoding an encoding gives the value and
  the rest. `BorshExact`: in addition only encodings decode. Both are assumptions for these four types only; they are
  proved for all other types. For `serde` the readers of these four types are parameters too; `SerdeLaw` (reading
  what was written) and `Required` (a missing field of such a type is an error) are assumptions for them only.
* **Console.** A command is a function from file system and tape to outcome, file system and tape; changes made before
  a failure remain. `deflate`/`inflate` are parameters with `inflate (deflate b) = b`. The theorems about single
  commands hold for every assignment of values to arguments (`Given`); `Model/CommandLine` says which words give which
  assignment. Different path strings are different files.

## 3. Plan per property

| id | what is modelled | how it is proved |
|---|---|---|
| C01 | both grammars, `parse` | induction on the parser recursion: results are images of spec trees |
| C02 | `parse` incl. the `number` arm | violated: witness `5`; exact condition from C58/C59 |
| C03 | `serialize_policy` JSON, JSON grammar | printer lies in the grammar (induction), parser exactness |
| C04 | `serialize_policy` Human | violated for every parsed policy; partial for names that carry quotes |
| C05 | columns in the parser, `node_index` | violated by two-line texts; partial: texts without newline give distinct labels |
| C06 | human grammar | relation `Mixed` describes every wrong continuation; PEG commits |
| C07 | both grammars | induction on the tree with a spec printer |
| C08, C09 | `traverse_policy` | induction against `Pol.sat` |
| C10 | `calc_pruned` | induction on the tree |
| C11 | sharing functions | Lagrange interpolation (Mathlib) + induction on the tree; by leaf position for every policy, by label for distinct labels |
| C64 | `recover_secret` | corollary of C11 for initial segments of leaves; exact domain; counterexamples |
| C65 | aborts of `decrypt` | case analysis of every panicking operation; exact conditions for every stored text, key and ciphertext |
| C12 | same | linearity + construction of a randomness offset by induction |
| C13 | `gen_shares`, `recover_coefficients` | Lagrange |
| C14 | `node_index`, `remove_index` | string lemmas; violated for names with `_` |
| C15–C18 | `lw`, `calculate_msp` | invariant of the Lewko–Waters conversion; C18 violated (n-ary AND) with exact panic condition |
| C19–C22 | `dnf`, `json_to_dnf`, `policy_in_dnf` | invariant on the term list; exact term list for any public keys in `Props/DnfExact`; C19/C20 violated, C22 for empty AND gates |
| C23, C24 | `aes` | equational; C24 violated for payloads shorter than 12 bytes |
| C25–C29 | BSW | bilinearity + C11; delegation by explicit randomness; C29 violated |
| C30–C33, C50 | AC17 | bilinearity + C15; cancellation of the column sums; violated for repeated attributes |
| C34, C35, C51 | LSW | bilinearity + C11 |
| C36, C37 | YCT14 | same |
| C38–C41 | AW11 | same; invariant over histories of key requests |
| C42, C43 | GHW11 | same |
| C44–C48 | BDABE, MKE08 | bilinearity + C22; string specification of `from_authority` |
| C49, C52 | several | explicit attack functions using public data only; C49 for BSW, GHW11, AW11: translation of the random numbers hides the secret from what an unsatisfying key reads, whatever policy is stored; AC17: the hash columns left over are a non-zero combination |
| C53 | all eight schemes (AC17 in both variants) | permutation lemmas for every lookup; corollaries of the correctness theorems |
| C54–C56, C61–C63 | console | file-system state machine for both serialisers; composition of the commands, also with others in between; frame and postcondition calculi |
| C57, C60 | borsh-derived encoders | laws proved once per type former, then per type |
| C66 | serde-derived conversions, packed and named CBOR | laws once per type former; CBOR by induction on the value |
| C67 | `Display` of span programs | unique readability of the layout |
| C68 | YCT14, BSW, MKE08, BDABE | explicit key combination (YCT14); exact value computed by a mixed key |
| C69 | encryption / key generation of all schemes | exact set of accepted and of aborting policy trees |
| C70 | all randomised functions | predicate `Uses` (number of values drawn, independence of the rest) closed under the monad; injectivity of the output by `shareVals_inj` (polynomials) and `mrows_rank` (independent columns of the span program) |
| C71 | all schemes | map-level lemmas on successful runs (`RM.mapL_names`, `mapR_names`, `shares_names`): the list of names of the output is a function of the list of names of the input |
| C72 | BSW `delegate`, `keygen` | `Tape.shift δ` adds constants to the scalars of a random stream (a bijection that preserves the uniform distribution); `mapL_shift` by induction on the list of attributes |
| C73 | `encrypt` of all schemes | two runs with the same scalars; `Tape.setGt`, `Tape.setPoints` replace the session element |
| C74 | both grammars | `Model/PestSteps` counts entries of `node` along the model of the parser; JSON: consumed characters pay for entries; human: inductive relation `Visits` over derivations, upper bound by induction on the nesting |
| C75 | all schemes | `Reach` says which gates pruning visits (`calcPruned_reach`: the exact outcome of `calc_pruned`); `Proof/Lookup` evaluates the lookups by label without assuming distinct labels; loop invariants with explicit scalars; AC17: sums over all selected pairs with explicit multiplicities; BDABE, MKE08: the exact term list of `json_to_dnf` (`spread`) |
| C76 | `src/ffi/bsw.rs` | outcomes `ok`, `panic`, `undefined` (access outside of an allocation); buffers as byte lists, `serde_json` a parameter; case analysis with exact lengths; violated |
| C77 | all schemes' `setup`, `encrypt` | computations of an outsider as exponent lists over the seen elements (`Verif.Spec.Generic`); the difference of two runs is linear in the varied values; counting of the bad values; for the normal-form schemes the policy terms are computed over exponents first (`Verif.Proof.DnfMap`) |
| C78 | helpers on `PolicyValue` | structural induction over all policy values |
| C79 | `src/error.rs` | injectivity of decimal notation |
| C80 | YCT14 `setup`, `keygen`, `encrypt` | change of variables from the attribute secrets to the key components; along the translation of C12 the key and the ciphertext stay fixed; counting as for C77 |
| C81 | GHW11 `setup`, `keygen`, `tkgen`, `encrypt` | change of variables from (`r`, `z`) to (`r / z`, `alpha / z`) for every user, after which the transformation keys do not depend on `alpha`; C77 in every fibre |
| C82 | console `main`, `run` (`Model/Main.lean`) | case distinction over schemes, languages and commands; composed with C62 |
| C83 | `encrypt`, `decrypt` of all schemes, `decrypt_symmetric` | form of the payload from C73; every decryption ends in `decrypt_symmetric` on the payload; the cipher under equal derived keys |
| C84 | `authgen`, `add_to_attribute`, `encrypt` of AW11 | sharing hides the secret from the union of all requested names; generic computations, counting over the random numbers |
| C85 | `authgen`, `add_to_attribute`, `encrypt` of AW11 | all secrets vary: sets that meet every line of a direction in few points; the converse by linear duality |
| C86 | `setup`, `authgen`, `keygen`, attribute requests and `encrypt` of MKE08 and BDABE | all secrets vary: the answer of a computation is a polynomial of degree 4 (Schwartz–Zippel); it is not zero by evaluating at points where a member's secret cancels; the converse by giving the computation |
| C87 | console commands, exit status | evaluation of the command monad up to the refused call; composed with C82 |
| C88 | `ser_dec`, `read_file`, `read_raw`, `from_hex` | induction over the text; inductive relation between text and half bytes |
| C89 | `setup`, `keygen`, `encrypt` of YCT14 | the runs that give certain keys are the solutions of linear equations outside some hyperplanes; a linear form vanishing where others do is a combination of them; counting along lines |
| C90 | `BorshSerialize` of all schemes, `encrypt_symmetric` | the borsh size as a function to `ℕ∞` (`⊤` for a refused count), computed per type; counts of components from the loops |
| C91 | recursion of `node`, and of `human::parse`/`json::parse` over the pairs | the depth as a function beside each rule (`Model/PestDepth`), same control flow; bounded by counting brackets, exact by induction on the derivation |
| C92 | `authgen`, attribute requests and `encrypt` of AW11, MKE08, BDABE | the computation is chosen after the secrets of the dishonest authorities; AW11 from C84 with their attributes added to the held ones, and with public keys of dishonest authorities that are any linear function of the honest ones (`RogueAw11.lean`), MKE08 and BDABE from C86 with constants for their secrets |
| C93 | `kp_keygen`, `keygen` and decryption of AC17, LSW, YCT14 | as C49 with the sharing on the side of the key: hidden translations of the shares found under the shortened names (`namedShare_hidden`); AC17: columns with non-zero coefficients (`colCoeff_ne`) |
| C94 | `src/ffi/bsw.rs` with pointers | memory as a list of typed objects, any allocator; invariant relating the memory to the history of calls and answers (`C94_live`); frame theorem (`C94_persist`); violated |
| C95 | white space and comments in both grammars | tokens and layouts in `Spec/Layout`; every derivation of the grammars is rebuilt for every layout of its tokens (`human_tokens`, `json_tokens`); columns erased for the functions that do not look at them (`Proof/Columns`); violated for the schemes that label by column |
| C96 | the argument declarations of the console and the words of a command line (`Model/CommandLine`) | invariant of the reader over all word lists, a writer of words for every assignment; the consequences use C61-C63 and C31 |
| C97 | derived readers of all structures and enumerations (`Model/Serde`) | invariant of the collection of the entries of a map, then one generic theorem for all derived structures |
| C98 | parsers, serialiser, sharing, all schemes | span program, normal form and pruning do not see columns; shares and coefficients of two trees alike position by position, then a relation between two runs on one tape (`RM.Alike`) |
| C99 | documentation examples of all schemes (`Model/Docs`) | correctness (C25, C30, C32, C34, C36, C38, C44, C46) for the runs of the examples; where a number is inverted, the example aborts exactly if it is zero |
| C100 | `encrypt` of AW11, BDABE, MKE08 with the list of public keys | the normal form only uses the keys of each name in their order (`dnf_filter`), `find_pk_attr` the first of each name; both are unchanged by rearranging and adding |
| C101 | `keygen`, `delegate`, `authgen` and key-policy `encrypt` with lists of attributes | case analysis on the list; induction over the loops for the first attribute that is refused or aborts |
| C102 | `setup`, `authgen`, `keygen`, `tkgen`, `kp_keygen` with arbitrary random numbers | case analysis on the numbers that are inverted; induction over the shares for the first that aborts |
| C103 | `tkgen`, `transform`, `decrypt_out` of GHW11 | induction over the loop of `transform` (the blinding factors out), algebra with the closed form of `transform` |
| C104 | unit tests of `bsw` and `ghw11` (`Model/Tests`) | correctness and refusal (C25–C28, C42, C43) for the runs of the tests; index of the inverted random number from C70; the policies are parsed by the kernel |
| C105 | unit tests of `ac17`, `lsw` and `yct14` (`Model/TestsKp`) | as C104 with C30–C36; for the aborts C101 and C102 |
| C106 | unit tests of `aw11` (`Model/TestsAw11`) | induction over the attributes added to a key gives its names; then C38 and C39 |
| C107 | unit tests of `mke08` and `bdabe` (`Model/TestsMa`) | every term that encryption keeps is made of given public keys, all of which belong to the user (C21–C22), then C44–C46 |
| C108 | unit tests of `secretsharing`, `dnf` and `aes` (`Model/TestsUtils`) | shares of one gate are the shares of the policy with that gate, then C64; numbers of shares and coefficients from the closed forms of both; C23 |
| C58, C59 | grammars | inductive relations in `Spec/Grammar` and `Spec/GrammarFirst`, equivalence with the PEG by strong induction on length |

## 4. Where the code violates a property

For each the negation is proved with a concrete witness (or for all inputs), and a `_partial` theorem gives the exact or
largest proved remaining case.

| id | finding |
|---|---|
| C02 | a number in place of an attribute makes `parse` panic instead of returning an error |
| C04 | the human serialiser writes names without quotes: no serialised policy is ever accepted again |
| C05 | share labels use the column only: leaves on different lines can get the same label |
| C11 | as a consequence, looking shares up by label does not reconstruct for such policies; gates with one child abort the pruning |
| C14 | `remove_index` cuts at the first `_`, so names containing `_` are truncated |
| C18 | the span program conversion panics on AND gates with other than two children (both grammars produce them) |
| C19 | a conjunction as second or later disjunct also contributes its first attribute as a term of its own |
| C20 | nested gates of the same kind pass the DNF check and then panic in the conversion |
| C22 | the JSON policy `and` without children is satisfied by everybody, but its conversion lists no conjunction |
| C24 | payloads shorter than 12 bytes panic |
| C25, C42 | names with `_`, multi-line policies, one-child gates |
| C29, C52 | public hash exponents: a key component for one attribute can be turned into one for any other; a ciphertext of BSW or GHW11 can be given any other policy without a key |
| C30, C32 | attributes repeated in policy, key or ciphertext |
| C34, C36 | attributes repeated in the policy, names with `_`, one-child gates; LSW also negative attributes |
| C38 | names with `_`, equal names at two authorities, ternary AND gates |
| C40 | `keygen` and `decrypt` of AW11 do not normalise case |
| C41 | two components for one attribute and different identities yield the component of any identity; under an OR gate even components for different attributes do, so three users without a common attribute open `A and (B or C)` |
| C44, C46 | nested gates, missing public keys, an empty JSON AND, two authorities of the same name |
| C49 | BDABE and MKE08: a user owning only the first attribute of a later conjunction decrypts after replacing the stored text; BSW, AW11, AC17: only if random numbers are zero or cancel (chance) |
| C50 | attribute `0j` hashes like column `j`; a key for attribute `01` yields a key for every policy |
| C51 | LSW key generation panics on names that start with a non-ASCII character or with `_` |
| C53 | BSW, AC17: a larger key can fail where a smaller one decrypts (policies outside C25, C30) |
| C54, C57 | YCT14: the derived `borsh` serialiser skips the group elements; stored keys are useless |
| C55 | console `decrypt` opens the output for reading: a non-empty plaintext always panics and is lost |
| C56 | console: delegation never succeeds; `encrypt` never succeeds for AC17KP, BDABE, MKE08, and with the `borsh` feature YCT14; several commands read other files than their predecessors write; BSW, LSW, AW11 ciphertexts are stored as a `Result` and cannot be read |
| C59 | JSON: a quoted operator with a comment containing a quote inside the quotes is committed to as an attribute; some texts are both an attribute and a gate, and are read as the attribute |
| C62 | console `req-attr-sk` for BDABE reports success when the request is refused |
| C63 | `setup --msk k --pk k` reports success and loses the master key; `encrypt` for BSW, LSW and AW11 reports success when the library returned an error |
| C64 | `recover_secret` returns twice the secret from both shares of `A or B`; for `(A or B) and C` the shares of `B`, `C` give another value |
| C65 | every `decrypt` can be made to panic by the ciphertext: payload shorter than 12 bytes, missing component (AW11, GHW11), vector shorter than 3 (AC17), private node or attribute outside the universe (YCT14), name with an underscore (LSW), gate with one child |
| C68 | YCT14: the key components of a conjunction are additive shares divided by fixed exponents, so two keys for `A and B` determine the key for `B` |
| C69 | AC17, AW11: a parsed policy with an AND of three panics in `calculate_msp`; BDABE, MKE08: nested ANDs panic; LSW: see C51 |
| C70 | LSW `encrypt`: the loop draws one scalar more than it uses; the ciphertext does not depend on the last one |
| C71 | AW11 `encrypt` drops a leaf without public key; YCT14 `keygen` drops a leaf whose attribute is unknown; both report success |
| C74 | human grammar: entries of `node` grow as 3^n with n pairs of brackets, as 6^n with n unclosed brackets (refused text), and exponentially for alternating AND/OR without superfluous brackets |
| C76 | `rabe_bsw_decrypt` copies 12 bytes more than the plaintext has; an empty plaintext panics; names with commas are split; no plaintext is ever returned |
| C78 | `traverse_policy` is true on a leaf object for everybody with some attribute; the normal form conversion refuses a leaf object below an OR although the check accepts it |
| C79 | errors in policies of the human language are reported as `Json Policy Error` |
| C80 | YCT14: two components of one key for the same attribute give an equation between attribute secrets; a key for `(A and B) or (A and C)` opens ciphertexts for `B`, `C` |
| C82 | console `run` ends with `_ => Ok(())`: a command line without a subcommand does nothing and exits with status 0 |
| C84 | AW11: encryption for `A_B` uses the public key of `A`; a holder of `A` opens it after relabelling |
| C85 | AW11: as C84 |
| C87 | console: `keygen` unwraps the result of the library and aborts with status 101 instead of reporting the error (six schemes); `encrypt` of BSW, LSW and AW11 serialises the `Result` itself, so a refusal is stored as the ciphertext and reported as success |
| C91 | neither parser limits the nesting: `n` opening brackets make `node` nest `n + 1` deep, also if the text is refused |
| C92 | BDABE: one authority opens every ciphertext with its own key; MKE08: an authority that publishes a key computed from the others' opens conjunctions with them; AW11: as C84 |
| C93 | by chance (random numbers of the key zero); LSW, YCT14: a key for `A_1` opens ciphertexts for `A` once its text says `A` |
| C94 | `rabe_bsw_delegate` and `rabe_bsw_decrypt_get_size` need objects that the interface never hands out; no program gets a plaintext from `rabe_bsw_decrypt` |
| C95 | BSW (and the other schemes that label leaves by column): a policy with a repeated attribute decrypts on one line and not with line breaks |
| C96 | `authgen` cannot be given a name on the command line, so no authority of BDABE or MKE08 is ever created; `keygen` takes one attribute, so the README session (key for `A and B`, policy `"A" and "B"`) ends with a refusal |
| C97 | the packed format says nothing about the kind of an object: an MKE08 public key is accepted as a master key (so `keygen` succeeds without the master key, with a useless key), a BDABE public attribute key as a secret one, an AC17 key for the attributes `p`, `HumanPolicy` as a key with policy `p` |
| C98 | BSW, GHW11 and AW11 label the components of a ciphertext with the columns of the stored text: a ciphertext whose stored text is replaced by the JSON text that the library writes for it is refused (BSW) or makes decryption abort (GHW11, AW11) |
| C99 | the examples for BSW, AC17 and YCT14 abort if one of certain random numbers is zero (they are inverted and the result is unwrapped) |
| C100 | BDABE, MKE08: a public key given twice gives another ciphertext; AW11: for the policy `"A_B"` the public key of the attribute `A` adds a component |
| C101 | AC17 KP-ABE encrypts for the empty list and no key opens the result; YCT14 aborts for an attribute that was not given to set-up; an AW11 authority for `a` aborts when asked for a key for `a` |
| C102 | if a random number that is inverted is zero, BSW set-up and GHW11 transformation keys abort, and AC17 and YCT14 set-up return keys with which key generation aborts |
| C104 | the unit tests of `bsw` and `ghw11` fail if one of certain random numbers is zero (as C99) |
| C105 | the unit tests of `ac17` and `yct14` fail if one of certain random numbers is zero (as C99) |

## 5. Modelled and not modelled

Modelled: `src/error.rs` (messages of refused policies and field errors), `src/utils/{policy,secretsharing,tools,aes,hash,file}`, both grammar files, all of `src/schemes` with the examples in its documentation and the unit tests of `ac17`, `aw11`, `bdabe`, `bsw`, `ghw11`, `lsw`, `mke08` and `yct14` and those of the utilities that draw random numbers or use group elements, `src/ffi/bsw.rs`, the derived
`borsh` and `serde` instances of all key and ciphertext types, CBOR as used with `serde`, `rabe-console/src/mod.rs` with
each of its two features (`Con.format`; `Cargo.toml` gives the library the feature `borsh` in both cases, which does not
matter because the two derived serialisers are independent).

Not modelled:

* Benches, `println!` output. (`src/ffi/bsw.rs` is modelled although `lib.rs` does not declare the module `ffi`, with
  pointers in `Verif/Model/FfiHeap.lean`; `malloc` failure and threads are not.)
* Curve arithmetic, SHA-3, AES-GCM and DEFLATE internals (parameters, see section 2); computational hardness.
* Under the `serde` feature: floating-point numbers and indefinite lengths in CBOR input. The behaviour of `serde` and `serde_cbor` is transcribed from their documentation. The model first reads a value and then decides what it is; `serde_cbor` looks at the first byte of an enumeration or an optional value, so that a tagged enumeration, a map of one entry with a longer head in its place, and `undefined` in place of an absent optional value are accepted by the model only.
* The source of `clap`: what it does with the declarations of the console is transcribed from its documentation in
  `Model/CommandLine` (release build; in a debug build its own checks refuse the declarations of `authgen` and `req-attr-sk`
  for every command line). Permissions and links of the file system.
* Memory exhaustion, the size of stack frames and running time (except the number of `node` entries of the parsers, C74, and how deep they nest, C91).

## 6. Testing the model and the theorems

`Verif/Check` transcribes every `#[test]` of `/repo` (utilities and schemes) and evaluates it on the model with concrete
groups and pairwise different random numbers. All of them have the outcome that the test asserts. Some of them confirm
findings: `test_dnf_from` expects three terms for a policy with two disjuncts (C19), `bdabe::or_and` passes although a
public key is missing (C44). These are tests of the transcription, not proofs.

Each line of `seeded/LOG.jsonl` is one edit of the model made in a scratch copy: the definition, the edit, the claim it
breaks, the property theorems that no longer hold (`failed`: their proof, or a lemma it depends on, no longer checks) and
the theorems that were added or tightened because an edit survived (`tightened`).

## 7. Trusted base

* Lean's kernel.
* Faithfulness of the transcription of `/repo` into `Verif/Model`.
* The assumptions listed in section 2, all of which are explicit hypotheses or fields of the environment.
* No axioms of our own; no `sorry`, `native_decide`, `bv_decide`, `implemented_by` or `unsafe`. Axioms used, by
  `#print axioms` (theorems of `MANIFEST.json`):

  * `Classical.choice`, `Quot.sound`, `propext`: all theorems not listed below (654)
  * `Quot.sound`, `propext`: `Ac17.C31_ac17_cp_refuses`, `Ac17.C33_ac17_kp_refuses`, `Ac17.C71_kp_encrypt`, `Ac17.C73_cp_encrypt`, `Ac17.C73_kp_encrypt`, `Ac17.C83_cp_sound`, `Ac17.C83_kp_sound`, `Ac17.C98_cp_decrypt`, `Ac17.C98_cp_encrypt`, `Ac17.C98_kp_decrypt`, `Aw11.C38_violated_ternary`, `Aw11.C40_aw11_authgen_partial`, `Aw11.C40_violated_keygen`, `Aw11.C70_setup_used`, `Aw11.C71_add`, `Aw11.C71_authgen`, `Aw11.C71_keygen`, `Aw11.C92_any_key`, `Bdabe.C100_bdabe_lookup`, `Bdabe.C44_bdabe_defined`, `Bdabe.C44_violated_nested`, `Bdabe.C45_bdabe_refuses`, `Bdabe.C48_bdabe_unique`, `Bdabe.C65_bdabe_no_abort_partial`, `Bdabe.C70_setup_used`, `Bdabe.C71_encrypt`, `Bdabe.C71_keygen`, `Bdabe.C98_decrypt`, `Bdabe.C98_encrypt`, `Bdabe.C99_returns`, `Bsw.C71_delegate`, `Bsw.C76_delegate`, `Bsw.C76_violated_underflow`, `C03_json_text`, `C102_names`, `C108_aes`, `C10_pruning`, `C20_dnf_convertible_partial`, `C20_violated`, `C21_dnf_check_values`, `C22_dnf_nonempty`, `C22_dnf_sorted`, `C22_violated`, `C23_encrypt_total`, `C23_framing_lossless`, `C24_no_abort_partial`, `C24_violated`, `C54_stores`, `C57_yct14_encrypt_panics`, `C59_json_parse_sound_partial`, `C59_violated`, `C59_violated_ambiguous`, `C78_violated_dnf`, `C96_dash`, `C96_violated_names`, `C97_named_partial`, `C98_msp`, `Ghw11.C52_violated_ghw11`, `Ghw11.C65_ghw11_out_abort_iff`, `Ghw11.C71_keygen`, `Lsw.C70_setup_used`, `Lsw.C71_encrypt`, `Mke08.C100_mke08_lookup`, `Mke08.C107_mke08_two_aborts`, `Mke08.C46_mke08_defined`, `Mke08.C46_violated_nested`, `Mke08.C47_mke08_refuses`, `Mke08.C48_mke08_unique`, `Mke08.C65_mke08_no_abort_partial`, `Mke08.C70_authgen_used`, `Mke08.C71_encrypt`, `Mke08.C71_keygen`, `Mke08.C98_decrypt`, `Mke08.C98_encrypt`, `Mke08.C99_returns`, `Yct14.C71_encrypt`, `Yct14.C71_setup`, `Yct14.C73_encrypt`
  * `propext`: `C02_violated`, `C05_violated`, `C14_strip_partial`, `C14_violated`, `C18_violated`, `C67_from_policy`, `C78_dnf_partial`, `C78_traverse_partial`, `C96_legal`, `C97_language_written`, `C97_node_written`, `C97_value`, `C98_dnf`
  * none: `Ac17.C50_violated`, `C59_json_first`, `C67_display_ambiguous`, `C79_field`, `C79_violated`
