{"id": "C01", "title": "Parsed policies are well-formed access trees", "statement": "Whenever parse() accepts a policy text, the result is a tree whose inner nodes are AND/OR gates over a list of children and whose leaves are attribute names; in the human language every gate has at least two children.", "quantifier": "every policy text (any string of Unicode characters), both policy languages", "why_tests_cant": "The set of texts is infinite and nesting is unbounded; tests sample a handful of shapes.", "anchors": ["src/human.policy.pest", "src/json.policy.pest", "src/utils/policy/pest/mod.rs: parse", "src/utils/policy/pest/human.rs: parse", "src/utils/policy/pest/json.rs: parse"]}
{"id": "C02", "title": "Parsing never aborts the process", "statement": "parse() returns Ok or Err for every text and never panics, so an attacker-supplied policy cannot abort the caller.", "quantifier": "every policy text, both languages", "why_tests_cant": "Absence of panics over all inputs cannot be sampled; the numeric-literal path is not covered by any test.", "anchors": ["src/utils/policy/pest/mod.rs: parse", "src/utils/policy/pest/human.rs: parse (Rule::number)", "src/utils/policy/pest/json.rs: parse (Rule::number)"]}
{"id": "C03", "title": "JSON serialisation of a policy parses back to the same policy", "statement": "Serialising a parsed policy to JSON and parsing that text again succeeds and yields the same gates, children order and attribute names.", "quantifier": "every policy accepted by parse() in either language", "why_tests_cant": "Needs every tree shape and every attribute spelling (escapes, comments inside names, the words and/or).", "anchors": ["src/utils/policy/pest/mod.rs: serialize_policy", "src/utils/policy/pest/mod.rs: parse", "src/json.policy.pest"]}
{"id": "C04", "title": "Human-language serialisation of a policy parses back to the same policy", "statement": "Serialising a parsed policy to the human language and parsing that text again yields the same policy.", "quantifier": "every policy accepted by parse()", "why_tests_cant": "The existing tests compare the text with an expected literal and never parse it again.", "anchors": ["src/utils/policy/pest/mod.rs: serialize_policy", "src/human.policy.pest"]}
{"id": "C05", "title": "Leaves of one policy get pairwise different share labels", "statement": "Two different leaves of a parsed policy never receive the same label (attribute name plus position), which is what every scheme uses to match shares with ciphertext components.", "quantifier": "every accepted policy text, both languages, including multi-line texts", "why_tests_cant": "Collisions depend on the layout of the text; tests only use single-line policies.", "anchors": ["src/utils/secretsharing/mod.rs: node_index", "src/utils/policy/pest/human.rs: parse (line_col)", "src/utils/policy/pest/json.rs: parse (line_col)"]}
{"id": "C06", "title": "Operators are never mixed without parentheses", "statement": "A human-language policy that combines AND and OR at the same level without parentheses is rejected, so there is no silent precedence rule.", "quantifier": "all operands, all spellings of the operators, both orders", "why_tests_cant": "Infinitely many operands; the outcome depends on PEG commitment, not on a single example.", "anchors": ["src/human.policy.pest: node, and, or, content"]}
{"id": "C07", "title": "Every access tree is expressible in both policy languages", "statement": "For every tree of AND/OR gates with at least two children over legal attribute names, its fully parenthesised human text and its JSON text parse to exactly that tree.", "quantifier": "all trees of any depth and width, all legal attribute names", "why_tests_cant": "Unbounded depth and width.", "anchors": ["src/human.policy.pest", "src/json.policy.pest", "src/utils/policy/pest/mod.rs: parse"]}
{"id": "C08", "title": "The policy check decides exactly the Boolean meaning of the policy", "statement": "For a non-empty attribute set, the check run before decryption accepts iff the attributes satisfy the AND/OR formula denoted by the policy; the empty set is always refused.", "quantifier": "all parsed policies and all attribute lists", "why_tests_cant": "Doubly infinite domain; tests use four trees.", "anchors": ["src/utils/tools/mod.rs: traverse_policy"]}
{"id": "C09", "title": "Owning more attributes never loses access", "statement": "If a set of attributes passes the policy check then every superset passes; the result does not depend on order or repetition of the attributes.", "quantifier": "all policies, all pairs of attribute lists with inclusion", "why_tests_cant": "Relational property over pairs of runs.", "anchors": ["src/utils/tools/mod.rs: traverse_policy", "src/utils/secretsharing/mod.rs: calc_pruned"]}
{"id": "C10", "title": "Pruning selects a sufficient set of leaves the user really owns", "statement": "For policies whose gates have at least two children, pruning reports a match iff the attributes satisfy the policy, and then the selected leaves are leaves of the policy, each owned by the user, and on their own satisfy the policy; without a match nothing is selected. Gates with fewer than two children abort.", "quantifier": "all policies, all attribute lists", "why_tests_cant": "Needs induction over trees; the break/append logic only misbehaves on particular nestings.", "anchors": ["src/utils/secretsharing/mod.rs: calc_pruned", "src/utils/tools/mod.rs: contains"]}
{"id": "C11", "title": "Satisfying shares always reconstruct the shared secret", "statement": "Splitting any secret along a policy and recombining the shares of the pruned leaves with the published coefficients yields the secret, whatever the random polynomial coefficients are.", "quantifier": "all policies with gates of arity 1..2^64, all attribute sets satisfying it, all secrets, all random choices", "why_tests_cant": "Requires quantification over field elements and randomness.", "anchors": ["src/utils/secretsharing/mod.rs: gen_shares_policy", "src/utils/secretsharing/mod.rs: calc_coefficients", "src/utils/secretsharing/mod.rs: recover_coefficients", "src/utils/secretsharing/mod.rs: polynomial"]}
{"id": "C12", "title": "Unauthorised shares reveal nothing about the secret", "statement": "For attributes that do not satisfy the policy there is, for any two secrets, a translation of the randomness under which all shares visible to those attributes are identical; hence their distribution is independent of the secret.", "quantifier": "all policies, all non-satisfying attribute sets, all pairs of secrets, all random choices", "why_tests_cant": "Perfect secrecy is a statement about all randomness at once.", "anchors": ["src/utils/secretsharing/mod.rs: gen_shares_policy", "src/utils/secretsharing/mod.rs: gen_shares", "src/utils/secretsharing/mod.rs: polynomial"]}
{"id": "C13", "title": "k-of-n sharing: any k shares reconstruct, fewer reveal nothing", "statement": "gen_shares(secret,k,n) returns n+1 evaluations whose 0-th entry is the secret; any k shares at distinct non-zero points combined with recover_coefficients give the secret, and any k-1 of them are consistent with every secret; if k>n the result is empty.", "quantifier": "all thresholds 1<=k<=n<2^64, all secrets, all random coefficients, all k-subsets", "why_tests_cant": "Combinatorially many subsets and infinitely many field values.", "anchors": ["src/utils/secretsharing/mod.rs: gen_shares", "src/utils/secretsharing/mod.rs: recover_coefficients", "src/utils/secretsharing/mod.rs: polynomial"]}
{"id": "C14", "title": "A share label determines attribute and position", "statement": "The label built from an attribute and a position is injective, and stripping the position from a label gives the attribute back.", "quantifier": "all attribute names and positions", "why_tests_cant": "Fails only for names containing the separator, which no test uses.", "anchors": ["src/utils/secretsharing/mod.rs: node_index", "src/utils/secretsharing/mod.rs: remove_index"]}
{"id": "C15", "title": "Span program accepts every satisfying set", "statement": "For every policy the span-program conversion accepts, the matrix rows of the leaves selected by pruning add up to (1,0,...,0).", "quantifier": "all policies with binary AND gates, all satisfying attribute sets", "why_tests_cant": "Unbounded trees.", "anchors": ["src/utils/policy/msp.rs: calculate_msp", "src/utils/policy/msp.rs: lw"]}
{"id": "C16", "title": "Span program rejects every non-satisfying set", "statement": "For attributes not satisfying the policy, (1,0,...,0) is not a linear combination, over the scalar field, of the matrix rows labelled with those attributes.", "quantifier": "all policies with binary AND gates, all non-satisfying attribute sets, all linear combinations", "why_tests_cant": "A non-existence statement over all coefficient vectors.", "anchors": ["src/utils/policy/msp.rs: calculate_msp", "src/utils/policy/msp.rs: lw"]}
{"id": "C17", "title": "Span program has the advertised shape", "statement": "All matrix rows have the reported width, the width is one plus the number of AND gates, there is one row per leaf, labels are sorted and every row keeps its own label through the sorting.", "quantifier": "all policies accepted by the conversion", "why_tests_cant": "Unbounded trees; re-sorting two arrays in lock-step.", "anchors": ["src/utils/policy/msp.rs: calculate_msp", "src/utils/policy/msp.rs: lw", "src/utils/policy/msp.rs: AbePolicy"]}
{"id": "C18", "title": "Span program conversion is defined for every parsed policy", "statement": "Converting a policy accepted by parse() either succeeds or returns an error; it does not abort.", "quantifier": "all parsed policies", "why_tests_cant": "Abort paths depend on the arity of arbitrarily deep gates.", "anchors": ["src/utils/policy/msp.rs: lw", "src/schemes/ac17/mod.rs: cp_encrypt", "src/schemes/aw11/mod.rs: encrypt"]}
{"id": "C19", "title": "DNF conversion preserves the meaning of the policy", "statement": "When a policy in disjunctive normal form is converted to a list of conjunctions, a set of attributes covers one of the listed conjunctions iff it satisfies the policy.", "quantifier": "all DNF policies, all lists of attribute public keys covering the policy, all attribute sets", "why_tests_cant": "Equivalence over all attribute sets; the existing test asserts only the number of terms.", "anchors": ["src/utils/policy/dnf.rs: dnf", "src/utils/policy/dnf.rs: json_to_dnf"]}
{"id": "C20", "title": "Policies accepted as DNF can be converted", "statement": "If the DNF check accepts a policy then the conversion succeeds, so encryption does not abort after the check.", "quantifier": "all parsed policies", "why_tests_cant": "Two recursive functions must agree on all trees.", "anchors": ["src/utils/policy/dnf.rs: policy_in_dnf", "src/utils/policy/dnf.rs: dnf", "src/schemes/bdabe/mod.rs: encrypt", "src/schemes/mke08/mod.rs: encrypt"]}
{"id": "C21", "title": "The DNF check rejects exactly policies with an OR below an AND", "statement": "A parsed policy passes the DNF check iff no OR gate occurs below an AND gate.", "quantifier": "all parsed policies", "why_tests_cant": "Unbounded trees.", "anchors": ["src/utils/policy/dnf.rs: policy_in_dnf"]}
{"id": "C22", "title": "DNF conversion never locks out authorised users", "statement": "If all attributes of the policy have public keys, attributes satisfying a converted policy cover at least one listed conjunction, and every listed conjunction carries exactly the products/sums of the public keys of its listed attributes.", "quantifier": "all convertible policies, all public key lists, all satisfying attribute sets", "why_tests_cant": "Index arithmetic on a mutable list of terms over arbitrary trees.", "anchors": ["src/utils/policy/dnf.rs: dnf", "src/utils/policy/dnf.rs: json_to_dnf"]}
{"id": "C23", "title": "Symmetric payload framing is lossless", "statement": "decrypt_symmetric applied with the same group element to the output of encrypt_symmetric returns the plaintext, for every nonce, and the output is the 12-byte nonce followed by the AEAD output.", "quantifier": "all group elements, plaintexts (including empty) and nonces", "why_tests_cant": "All byte strings.", "anchors": ["src/utils/aes/mod.rs: encrypt_symmetric, decrypt_symmetric, kdf"]}
{"id": "C24", "title": "Malformed ciphertext payloads are reported as errors", "statement": "Decrypting a payload of any length returns Ok or Err and never aborts.", "quantifier": "all byte strings as payload", "why_tests_cant": "Abort happens only below a length threshold nobody tests.", "anchors": ["src/utils/aes/mod.rs: decrypt_symmetric"]}
{"id": "C25", "title": "BSW: matching keys decrypt", "statement": "For any set-up, any key whose attributes satisfy the policy decrypts every ciphertext made for that policy to the original plaintext.", "quantifier": "all randomness of setup/keygen/encrypt, all policies and plaintexts, all satisfying attribute lists (repeated attributes allowed)", "why_tests_cant": "Correctness for all randomness and all trees; tests sample a few trees.", "anchors": ["src/schemes/bsw/mod.rs: setup, keygen, encrypt, decrypt"]}
{"id": "C26", "title": "BSW: non-matching keys are refused", "statement": "decrypt returns Err for every key whose attributes do not satisfy the policy stored in the ciphertext, whatever the group elements in key and ciphertext are.", "quantifier": "all keys, all ciphertexts (also forged or corrupted)", "why_tests_cant": "All keys and ciphertexts.", "anchors": ["src/schemes/bsw/mod.rs: decrypt"]}
{"id": "C27", "title": "BSW: a delegated key is a genuine key, along any delegation chain", "statement": "Any key obtained by repeatedly delegating to subsets is equal to a key that keygen could have issued for the last subset, so it decrypts exactly like an issued key.", "quantifier": "all delegation chains of any length, all randomness", "why_tests_cant": "Induction over histories.", "anchors": ["src/schemes/bsw/mod.rs: delegate, keygen"]}
{"id": "C28", "title": "BSW: delegation never widens a key", "statement": "delegate succeeds iff the requested list is non-empty and contained in the key's attributes, and the new key carries exactly the requested attributes.", "quantifier": "all keys and all requested subsets, all chains", "why_tests_cant": "All lists and chains of calls.", "anchors": ["src/schemes/bsw/mod.rs: delegate", "src/utils/tools/mod.rs: is_subset"]}
{"id": "C29", "title": "BSW: attribute components cannot be transferred to other attributes", "statement": "From a key for one attribute set nobody can derive, with public values only, a key that decrypts ciphertexts whose policy the set does not satisfy.", "quantifier": "all keys, all target policies, all public computations", "why_tests_cant": "Security statement over all adversarial computations.", "anchors": ["src/schemes/bsw/mod.rs: keygen, encrypt, decrypt", "src/utils/hash/mod.rs: sha3_hash"]}
{"id": "C30", "title": "AC17 CP-ABE: matching keys decrypt", "statement": "Any key whose attributes satisfy the policy decrypts every ciphertext for that policy to the original plaintext.", "quantifier": "all randomness, all encryptable policies and plaintexts, all satisfying attribute lists", "why_tests_cant": "All randomness and trees; failure needs repeated attributes, which tests do not use.", "anchors": ["src/schemes/ac17/mod.rs: setup, cp_keygen, cp_encrypt, cp_decrypt"]}
{"id": "C31", "title": "AC17 CP-ABE: non-matching keys are refused", "statement": "cp_decrypt returns Err for every key whose attributes do not satisfy the stored policy.", "quantifier": "all keys and ciphertexts", "why_tests_cant": "All keys and ciphertexts.", "anchors": ["src/schemes/ac17/mod.rs: cp_decrypt"]}
{"id": "C32", "title": "AC17 KP-ABE: matching keys decrypt", "statement": "Any key whose policy is satisfied by the ciphertext attributes decrypts the ciphertext to the original plaintext.", "quantifier": "all randomness, all policies, attribute lists and plaintexts", "why_tests_cant": "All randomness and trees; kp_keygen accumulates a temporary across columns, so cancellation must hold for every matrix.", "anchors": ["src/schemes/ac17/mod.rs: kp_keygen, kp_encrypt, kp_decrypt"]}
{"id": "C33", "title": "AC17 KP-ABE: non-matching keys are refused", "statement": "kp_decrypt returns Err whenever the ciphertext attributes do not satisfy the key policy.", "quantifier": "all keys and ciphertexts", "why_tests_cant": "All keys and ciphertexts.", "anchors": ["src/schemes/ac17/mod.rs: kp_decrypt"]}
{"id": "C34", "title": "LSW KP-ABE: matching keys decrypt", "statement": "Any key whose policy is satisfied by the ciphertext attributes decrypts the ciphertext to the original plaintext.", "quantifier": "all randomness, policies, attribute lists, plaintexts", "why_tests_cant": "All randomness and trees.", "anchors": ["src/schemes/lsw/mod.rs: setup, keygen, encrypt, decrypt"]}
{"id": "C35", "title": "LSW KP-ABE: non-matching keys are refused", "statement": "decrypt returns Err whenever the ciphertext attributes do not satisfy the key policy.", "quantifier": "all keys and ciphertexts with gates of arity at least two", "why_tests_cant": "All keys and ciphertexts.", "anchors": ["src/schemes/lsw/mod.rs: decrypt"]}
{"id": "C36", "title": "YCT14 KP-ABE: matching keys decrypt", "statement": "For any attribute universe, any key whose policy is satisfied by the ciphertext attributes decrypts the ciphertext to the original plaintext.", "quantifier": "all universes, randomness, policies, attribute lists, plaintexts", "why_tests_cant": "All randomness and trees.", "anchors": ["src/schemes/yct14/mod.rs: setup, keygen, encrypt, decrypt"]}
{"id": "C37", "title": "YCT14 KP-ABE: non-matching keys are refused", "statement": "decrypt returns Err whenever the ciphertext attributes do not satisfy the key policy.", "quantifier": "all keys and ciphertexts with gates of arity at least two", "why_tests_cant": "All keys and ciphertexts.", "anchors": ["src/schemes/yct14/mod.rs: decrypt"]}
{"id": "C38", "title": "AW11: keys collected from several authorities decrypt", "statement": "A user key assembled by any sequence of keygen/add_to_attribute calls at independent authorities for one global identity decrypts every ciphertext whose policy the collected attributes satisfy.", "quantifier": "all numbers of authorities, all histories of key requests, all randomness, policies, plaintexts", "why_tests_cant": "Quantifies over histories and randomness.", "anchors": ["src/schemes/aw11/mod.rs: setup, authgen, keygen, add_to_attribute, encrypt, decrypt"]}
{"id": "C39", "title": "AW11: non-matching keys are refused", "statement": "decrypt returns Err for every key whose attributes do not satisfy the stored policy.", "quantifier": "all keys and ciphertexts", "why_tests_cant": "All keys and ciphertexts.", "anchors": ["src/schemes/aw11/mod.rs: decrypt"]}
{"id": "C40", "title": "AW11: attribute names are treated case-insensitively", "statement": "As documented, spellings differing only in case are the same attribute in authgen, keygen, add_to_attribute, encrypt and decrypt.", "quantifier": "all attribute names", "why_tests_cant": "Only particular spellings are tested.", "anchors": ["src/schemes/aw11/mod.rs: authgen, add_to_attribute, encrypt, decrypt"]}
{"id": "C41", "title": "AW11: keys of different identities cannot be combined", "statement": "Attribute keys issued to different global identities cannot be turned, with public values only, into a key for a third identity.", "quantifier": "all identities, authorities, randomness", "why_tests_cant": "Adversarial computation over all keys.", "anchors": ["src/schemes/aw11/mod.rs: add_to_attribute", "src/utils/hash/mod.rs: sha3_hash"]}
{"id": "C42", "title": "GHW11: outsourced decryption is correct", "statement": "Transforming a ciphertext with the transformation key and finishing with the retrieval key yields the plaintext whenever the attributes satisfy the policy.", "quantifier": "all randomness (including the blinding exponent), policies, plaintexts, satisfying attribute lists", "why_tests_cant": "All randomness and trees.", "anchors": ["src/schemes/ghw11/mod.rs: setup, keygen, tkgen, encrypt, transform, decrypt_out"]}
{"id": "C43", "title": "GHW11: transformation refuses non-matching keys", "statement": "transform returns Err for every key whose attributes do not satisfy the stored policy.", "quantifier": "all transformation keys and ciphertexts", "why_tests_cant": "All keys and ciphertexts.", "anchors": ["src/schemes/ghw11/mod.rs: transform"]}
{"id": "C44", "title": "BDABE: matching keys decrypt", "statement": "A user key holding attribute keys from any set of authorities decrypts every ciphertext whose policy its attributes satisfy.", "quantifier": "all authorities, key request histories, randomness, DNF policies, plaintexts", "why_tests_cant": "Histories and randomness.", "anchors": ["src/schemes/bdabe/mod.rs: setup, authgen, keygen, request_attribute_pk, request_attribute_sk, encrypt, decrypt"]}
{"id": "C45", "title": "BDABE: non-matching keys are refused", "statement": "decrypt returns Err for every key whose attributes do not satisfy the stored policy.", "quantifier": "all keys and ciphertexts", "why_tests_cant": "All keys and ciphertexts.", "anchors": ["src/schemes/bdabe/mod.rs: decrypt"]}
{"id": "C46", "title": "MKE08: matching keys decrypt", "statement": "A user key holding attribute keys from any set of authorities decrypts every ciphertext whose policy its attributes satisfy.", "quantifier": "all authorities, key request histories, randomness, DNF policies, plaintexts", "why_tests_cant": "Histories and randomness.", "anchors": ["src/schemes/mke08/mod.rs: setup, keygen, authgen, request_authority_pk, request_authority_sk, encrypt, decrypt"]}
{"id": "C47", "title": "MKE08: non-matching keys are refused", "statement": "decrypt returns Err for every key whose attributes do not satisfy the stored policy.", "quantifier": "all keys and ciphertexts", "why_tests_cant": "All keys and ciphertexts.", "anchors": ["src/schemes/mke08/mod.rs: decrypt"]}
{"id": "C48", "title": "Authorities only issue keys for their own attributes", "statement": "In BDABE and MKE08 an attribute key request succeeds iff the attribute name has the form authority::name with exactly one '::' and the prefix equals the authority's name.", "quantifier": "all attribute and authority names", "why_tests_cant": "String-splitting corner cases (overlapping colons).", "anchors": ["src/schemes/bdabe/mod.rs: from_authority, request_attribute_pk, request_attribute_sk", "src/schemes/mke08/mod.rs: from_authority, request_authority_pk, request_authority_sk"]}
{"id": "C49", "title": "Replacing the stored policy text gives no additional access", "statement": "If a key does not satisfy the policy used at encryption, overwriting the public policy field of the ciphertext does not make it decrypt.", "quantifier": "all keys, ciphertexts and replacement texts", "why_tests_cant": "Adversarial modification of public data.", "anchors": ["src/schemes/bdabe/mod.rs: decrypt", "src/schemes/mke08/mod.rs: decrypt", "src/schemes/bsw/mod.rs: encrypt, decrypt", "src/utils/policy/dnf.rs: dnf"]}
{"id": "C50", "title": "AC17: hash inputs of attributes and of matrix columns never coincide", "statement": "The strings hashed for an attribute are different from all strings hashed for span-program columns and for other attributes.", "quantifier": "all attribute names, all column numbers", "why_tests_cant": "Collisions exist only for special names.", "anchors": ["src/schemes/ac17/mod.rs: cp_keygen, cp_encrypt, kp_keygen"]}
{"id": "C51", "title": "LSW: key generation and encryption never abort on legal attribute names", "statement": "For every policy and attribute list keygen/encrypt return Ok or Err.", "quantifier": "all attribute names", "why_tests_cant": "Byte-slicing aborts on particular Unicode names.", "anchors": ["src/utils/tools/mod.rs: is_negative", "src/schemes/lsw/mod.rs: keygen, encrypt"]}
{"id": "C52", "title": "Attribute components cannot be transferred in the other schemes", "statement": "In GHW11, LSW, BDABE, MKE08 and AC17, key or ciphertext components for one attribute cannot be converted with public values into components for another attribute.", "quantifier": "all keys and ciphertexts, all target attributes", "why_tests_cant": "Adversarial computation.", "anchors": ["src/schemes/ghw11/mod.rs: keygen", "src/schemes/lsw/mod.rs: encrypt", "src/schemes/bdabe/mod.rs: request_attribute_sk", "src/schemes/mke08/mod.rs: request_authority_sk", "src/schemes/ac17/mod.rs: kp_encrypt", "src/utils/hash/mod.rs: sha3_hash, sha3_hash_fr"]}
{"id": "C53", "title": "Decryption does not depend on the order of the key's attributes", "statement": "Permuting the attributes given to key generation, or adding attributes, never changes a successful decryption result.", "quantifier": "all permutations and supersets of attribute lists", "why_tests_cant": "Relational property over all permutations.", "anchors": ["src/schemes/bsw/mod.rs: keygen, decrypt", "src/schemes/ghw11/mod.rs: keygen, transform"]}
{"id": "C54", "title": "Console: objects written to a file are read back unchanged", "statement": "Encoding an object with the console's file format and decoding the file again yields the same object.", "quantifier": "all objects, all headers used by the console, both serialisation features", "why_tests_cant": "All byte strings as payload.", "anchors": ["rabe-console/src/mod.rs: ser_enc, ser_dec", "src/utils/file/mod.rs: read_raw, read_file, write_file"]}
{"id": "C55", "title": "Console: decrypt stores the recovered plaintext", "statement": "After a successful decryption the output file contains the plaintext.", "quantifier": "all file-system states, all schemes, all plaintexts", "why_tests_cant": "File-system state space.", "anchors": ["src/utils/file/mod.rs: write_from_vec", "rabe-console/src/mod.rs: run_decrypt"]}
{"id": "C56", "title": "Console: commands chained with default file names work", "statement": "Running setup, keygen, encrypt, delegate, decrypt one after another with default options reads the files the previous commands wrote.", "quantifier": "all schemes, all initial file-system states, both serialisation features", "why_tests_cant": "State machine over command histories.", "anchors": ["rabe-console/src/mod.rs: run_setup, run_keygen, run_encrypt, run_delegate, run_decrypt"]}
{"id": "C57", "title": "Binary serialisation round-trips keys", "statement": "Under the borsh feature, deserialising a serialised key, ciphertext or attribute yields the same value.", "quantifier": "all values of the key and ciphertext types", "why_tests_cant": "All values; one field is marked skip in a single scheme.", "anchors": ["src/schemes/yct14/mod.rs: Yct14Attribute", "src/schemes/bsw/mod.rs: CpAbeSecretKey"]}
{"id": "C58", "title": "The human parser accepts exactly the human policy language", "statement": "parse() in the human language returns Ok for a text iff the text is generated by the context-free grammar of operands, brackets, comments and operators, and the result is the unique tree (with attribute columns) the grammar assigns to it.", "quantifier": "every text", "why_tests_cant": "Equivalence of a PEG parser with a declarative grammar over all texts.", "anchors": ["src/human.policy.pest", "src/utils/policy/pest/mod.rs: parse", "src/utils/policy/pest/human.rs: parse"]}
{"id": "C59", "title": "The JSON parser accepts exactly the JSON policy language", "statement": "parse() in the JSON language returns Ok for a text iff the text is generated by the grammar of the JSON policy language, and the result is the tree the grammar assigns to it.", "quantifier": "every text", "why_tests_cant": "Equivalence of a PEG parser with a declarative grammar; ordered choice may commit to the wrong alternative on rare texts.", "anchors": ["src/json.policy.pest", "src/utils/policy/pest/mod.rs: parse", "src/utils/policy/pest/json.rs: parse"]}
{"id": "C60", "title": "Binary serialisation is injective and self-delimiting", "statement": "Under the borsh feature, a byte string has at most one reading as a key or ciphertext, every accepted byte string is the serialisation of the value read (no malleable encodings), and no serialisation is a proper prefix of another.", "quantifier": "all byte strings, all key and ciphertext types", "why_tests_cant": "All byte strings, not only those produced by the serialiser.", "anchors": ["src/schemes/bsw/mod.rs: CpAbeSecretKey", "src/schemes/ac17/mod.rs: Ac17CpSecretKey", "src/schemes/aw11/mod.rs: Aw11Ciphertext", "src/schemes/bdabe/mod.rs: BdabeUserKey", "src/schemes/mke08/mod.rs: Mke08UserKey"]}
{"id": "C61", "title": "Console: a command changes only its output files", "statement": "Whatever the outcome of a command (success, error or abort), every file other than the output files named by its arguments or their default names keeps its content; decrypt and delegate change no file.", "quantifier": "all commands, arguments, schemes, file-system states, random choices and both serialisation features", "why_tests_cant": "Frame property over all file systems and all failure points.", "anchors": ["rabe-console/src/mod.rs: run_setup, run_authgen, run_keygen, run_delegate, run_encrypt, run_decrypt, run_req_attr_pk, run_req_attr_sk", "src/utils/file/mod.rs: write_file"]}
{"id": "C62", "title": "Console: reported success means the output was stored", "statement": "If a command reports success, each of its output files exists and can be decoded by the console.", "quantifier": "all commands, arguments, schemes, file-system states, random choices and both serialisation features", "why_tests_cant": "An error branch that only prints a message returns success for rare inputs.", "anchors": ["rabe-console/src/mod.rs: run_req_attr_sk", "rabe-console/src/mod.rs: run_setup"]}
{"id": "C63", "title": "Console: what a command stores is what the library returned", "statement": "If a command reports success, the library function of its scheme was called with exactly the objects in the input files and the values given on the command line, it returned a result, and reading the output files gives exactly that result.", "quantifier": "all commands, arguments, schemes, file-system states, random choices and both serialisation features", "why_tests_cant": "Swapped keys or wrong input files need not make a later command fail; errors stored as results look like success.", "anchors": ["rabe-console/src/mod.rs: run_setup, run_authgen, run_keygen, run_encrypt, run_decrypt, run_req_attr_pk, run_req_attr_sk"]}
{"id": "C64", "title": "recover_secret inverts gen_shares_policy", "statement": "For a JSON policy and the shares that gen_shares_policy computes for a secret, recover_secret returns the secret from the shares of any minimal authorised selection of leaves and from all shares; it aborts only if the text is not accepted or there are more shares than leaves.", "quantifier": "all JSON policy texts, secrets, random choices, selections", "why_tests_cant": "The unit tests cover one conjunction and one disjunction with a single share.", "anchors": ["src/utils/secretsharing/mod.rs: recover_secret, calc_coefficients, gen_shares_policy"]}
{"id": "C65", "title": "Decrypting data of unknown origin never aborts the process", "statement": "decrypt (transform for GHW11) called with a key and any ciphertext, well formed or not, returns a plaintext or an error and never panics.", "quantifier": "all schemes, all keys, all ciphertexts", "why_tests_cant": "A decryptor takes ciphertexts from strangers; the inputs that panic are crafted ones (missing or short components, short payloads, odd policies) that no encryption produces.", "anchors": ["src/schemes/bsw/mod.rs: decrypt", "src/schemes/ac17/mod.rs: cp_decrypt, kp_decrypt", "src/schemes/aw11/mod.rs: decrypt", "src/schemes/lsw/mod.rs: decrypt", "src/schemes/yct14/mod.rs: decrypt", "src/schemes/ghw11/mod.rs: transform", "src/schemes/bdabe/mod.rs: decrypt", "src/schemes/mke08/mod.rs: decrypt", "src/utils/aes/mod.rs: decrypt_symmetric"]}
{"id": "C66", "title": "Serialisation under the default serde feature round-trips", "statement": "With the serde feature every key and ciphertext, written by serde_cbor in packed form (as the console does) or with field names, is read back as the same value; truncated encodings and encodings with trailing bytes are rejected; different values have different encodings.", "quantifier": "all key and ciphertext types of all schemes, all values, both forms", "why_tests_cant": "Optional fields are left out, enumerations become maps and lengths change their width at 24, 256, 65536 and so on; tests use a few small values.", "anchors": ["src/schemes/yct14/mod.rs: Yct14Attribute, Yct14Type", "src/schemes/bsw/mod.rs: CpAbeCiphertext", "src/schemes/ghw11/mod.rs: Ghw11Ciphertext", "src/schemes/ac17/mod.rs: Ac17Ciphertext", "rabe-console/src/mod.rs: ser_enc, ser_dec", "src/utils/policy/pest/mod.rs: PolicyLanguage"]}
{"id": "C67", "title": "The printed form of a span program determines it", "statement": "Display of the span program of a policy text prints its matrix, labels and width in a fixed layout, and two such programs with the same printed form are equal.", "quantifier": "all policy texts of both languages", "why_tests_cant": "Injectivity over all programs; labels are printed between quotes without escaping.", "anchors": ["src/utils/policy/msp.rs: Display for AbePolicy"]}
{"id": "C68", "title": "Keys of several users cannot be combined", "statement": "Users none of whose keys satisfies a policy cannot decrypt by combining parts of their keys (collusion resistance).", "quantifier": "all schemes, all coalitions, all issued keys, all policies, all random choices", "why_tests_cant": "An algebraic relation between two keys of the same policy appears only when both are combined.", "anchors": ["src/schemes/yct14/mod.rs: keygen, decrypt", "src/schemes/bsw/mod.rs: keygen, decrypt", "src/schemes/mke08/mod.rs: keygen, decrypt", "src/schemes/bdabe/mod.rs: keygen, decrypt"]}
{"id": "C69", "title": "Every policy the parser accepts can be used", "statement": "Encryption (ciphertext-policy schemes) and key generation (key-policy schemes) succeed for every policy text that parses, fail exactly for the texts that do not, and never abort the process because of the shape of the policy.", "quantifier": "all policy texts of both languages, all keys, all random choices", "why_tests_cant": "Which tree shapes are supported depends on the conversion (span program, disjunctive form) behind the scheme; tests use the supported ones.", "anchors": ["src/schemes/bsw/mod.rs: encrypt", "src/schemes/ghw11/mod.rs: encrypt", "src/schemes/yct14/mod.rs: keygen", "src/schemes/lsw/mod.rs: keygen", "src/schemes/ac17/mod.rs: cp_encrypt, kp_keygen", "src/schemes/aw11/mod.rs: encrypt", "src/schemes/bdabe/mod.rs: encrypt", "src/schemes/mke08/mod.rs: encrypt"]}
{"id": "C70", "title": "Every random value is drawn once and enters the output", "statement": "Setup, key generation, delegation and encryption draw a fixed number of random values determined by their arguments, do not reuse a consumed value, and every drawn value influences the output: two runs that give the same output drew the same values.", "quantifier": "all schemes, all arguments, all random streams, all environments with non-zero generators", "why_tests_cant": "A dropped or reused random value gives output that decrypts correctly; only the comparison of two runs over all streams shows it.", "anchors": ["src/schemes/bsw/mod.rs: setup, keygen, delegate, encrypt", "src/schemes/ghw11/mod.rs: setup, keygen, tkgen, encrypt", "src/schemes/aw11/mod.rs: setup, authgen, encrypt", "src/schemes/lsw/mod.rs: setup, keygen, encrypt", "src/schemes/yct14/mod.rs: setup, keygen, encrypt", "src/schemes/ac17/mod.rs: setup, cp_keygen, kp_keygen, cp_encrypt, kp_encrypt", "src/schemes/bdabe/mod.rs: setup, authgen, keygen, encrypt", "src/schemes/mke08/mod.rs: setup, authgen, keygen, encrypt"]}
{"id": "C71", "title": "Keys and ciphertexts contain one component per requested attribute or leaf", "statement": "A key or ciphertext that is issued stores the policy it was made from unchanged and has exactly one component for each requested attribute, or each leaf of the policy, in the order of the request; nothing is added, dropped or duplicated.", "quantifier": "all schemes, all attribute lists, all policies, all random streams, all environments", "why_tests_cant": "A dropped or duplicated component shows only for particular policies, and decryption of other leaves still succeeds; a test compares single lists.", "anchors": ["src/schemes/bsw/mod.rs: keygen, delegate, encrypt", "src/schemes/ghw11/mod.rs: keygen, tkgen, encrypt", "src/schemes/aw11/mod.rs: authgen, add_to_attribute, keygen, encrypt", "src/schemes/lsw/mod.rs: keygen, encrypt", "src/schemes/yct14/mod.rs: setup, keygen, encrypt", "src/schemes/ac17/mod.rs: cp_keygen, kp_keygen, cp_encrypt, kp_encrypt", "src/schemes/bdabe/mod.rs: keygen, encrypt", "src/schemes/mke08/mod.rs: keygen, encrypt"]}
{"id": "C72", "title": "BSW: a delegated key does not show which key it was made from", "statement": "For every key and every non-empty list of its attributes, the key delegated to the list is distributed exactly like a key that keygen issues for the list: there are constants such that delegation with any random numbers equals key generation with the random numbers shifted by the constants. Hence keys delegated to the same list by two users, or after a different number of steps, have the same distribution.", "quantifier": "all setups, keys, attribute lists, random streams, chains of delegations, environments", "why_tests_cant": "Equality of distributions is a statement about all random streams at once; a delegation that reuses or forgets a random number still decrypts.", "anchors": ["src/schemes/bsw/mod.rs: delegate, keygen"]}
{"id": "C73", "title": "The plaintext enters a ciphertext only through the symmetric encryption", "statement": "The payload of a ciphertext is a freshly drawn nonce followed by the authenticated encryption of the plaintext under the key derived from a freshly drawn session element. Encrypting another plaintext under another session element with otherwise the same random numbers gives a ciphertext that differs only in the payload and in the component that masks the session element, and there only by the difference of the session elements.", "quantifier": "all schemes, all plaintexts, all session elements, all policies or attribute lists, all random streams", "why_tests_cant": "A header that depends on the plaintext, a fixed nonce or a key derived from another value decrypts correctly; non-interference needs all pairs of runs.", "anchors": ["src/utils/aes/mod.rs: encrypt_symmetric", "src/schemes/bsw/mod.rs: encrypt", "src/schemes/ghw11/mod.rs: encrypt", "src/schemes/aw11/mod.rs: encrypt", "src/schemes/lsw/mod.rs: encrypt", "src/schemes/yct14/mod.rs: encrypt", "src/schemes/bdabe/mod.rs: encrypt", "src/schemes/mke08/mod.rs: encrypt", "src/schemes/ac17/mod.rs: cp_encrypt, kp_encrypt"]}
{"id": "C74", "title": "Parsing a policy takes a number of steps polynomial in its length", "statement": "The number of times the parser enters the rule node (between two entries only literals, names and blanks are read) is bounded by a polynomial in the length of the policy text, for accepted and for rejected texts of both languages.", "quantifier": "all texts of any length, accepted or rejected, both languages", "why_tests_cant": "An exponential parser is fast on every text a test contains; the bound speaks about all lengths.", "anchors": ["src/human.policy.pest: node, and, or, term, value", "src/json.policy.pest: node, and, or", "src/utils/policy/pest/mod.rs: parse"]}
{"id": "C75", "title": "The result of an honest decryption is determined for every accepted policy text", "statement": "For a key that was issued and a ciphertext that was made by the library, decryption has one of these results, and which one is decided by the policy, the attributes and the drawn numbers alone. Not satisfied: error. Tree schemes (BSW, GHW11, LSW, YCT14, AW11): an abort if pruning visits a gate with fewer than two children, if (LSW, YCT14) a used name has an underscore, or if (AW11) no given public key has the part of a used name before the underscore. DNF schemes (BDABE, MKE08): the plaintext if the attributes contain one of the pieces the conversion makes of the policy. Otherwise the payload is opened with the session element plus an explicit multiple of a fixed group element (BDABE, MKE08: with the neutral element). The multiple is zero if the labels of the leaves differ and the used names are plain (no underscore; LSW, YCT14: also occur once and are positive; AC17: only occur once).", "quantifier": "all accepted policy texts of both languages, without conditions on gates, names or columns; all attribute lists, plaintexts, public key lists and random tapes; all schemes; in the multi-authority schemes authorities with different names (BDABE, MKE08) or attributes (AW11)", "why_tests_cant": "Correctness tests use regular policies; the claim gives the outcome for every irregular policy too.", "anchors": ["src/schemes/bsw/mod.rs: encrypt, keygen, decrypt", "src/schemes/ghw11/mod.rs: encrypt, keygen, tkgen, transform, decrypt_out", "src/schemes/lsw/mod.rs: keygen, encrypt, decrypt", "src/schemes/yct14/mod.rs: keygen, encrypt, decrypt", "src/schemes/aw11/mod.rs: authgen, keygen, encrypt, decrypt", "src/schemes/ac17/mod.rs: cp_keygen, cp_encrypt, cp_decrypt, kp_keygen, kp_encrypt, kp_decrypt", "src/schemes/bdabe/mod.rs: encrypt, decrypt", "src/schemes/mke08/mod.rs: encrypt, decrypt", "src/utils/policy/dnf.rs: json_to_dnf, dnf", "src/utils/secretsharing/mod.rs: calc_pruned, calc_coefficients, gen_shares_policy, remove_index"]}
{"id": "C76", "title": "The C interface gives what the library gives and stays inside its buffers", "statement": "Key generation, delegation, encryption and decryption through the C functions return what the library returns for the same names, policy text and bytes; lengths are exact; no byte outside of a buffer is read or written; refusals are reported as -1.", "quantifier": "all names, policy texts, plaintexts, buffer contents and lengths, all random tapes, with and without overflow checks", "why_tests_cant": "Reading a few bytes behind a heap buffer rarely crashes a test; the claim is about every length.", "anchors": ["src/ffi/bsw.rs: rabe_bsw_context_create, rabe_bsw_keygen, rabe_bsw_delegate, rabe_bsw_encrypt, rabe_bsw_decrypt_get_size, rabe_bsw_decrypt"]}
{"id": "C77", "title": "Without a key no fixed computation opens a ciphertext", "statement": "An observer sees the public keys, one ciphertext, any other ciphertexts made with known random numbers and any group elements made without the secrets, but no secret key. For every computation with group operations and pairings that is fixed in advance, all random numbers except three or four are arbitrary, and over the choices of these (a master or attribute secret, a random number of the encryption, the session element) the computation yields the session element for a fraction of at most 2/q, q the order of the groups.", "quantifier": "all schemes, all computations, all policies or attribute lists, all other ciphertexts, all other random numbers, all environments with a non-degenerate pairing of the generators; LSW with alpha2 not zero, BDABE and MKE08 for policies none of whose listed conjunctions has exponents with sum zero", "why_tests_cant": "A ciphertext that reveals the session element to everybody still decrypts correctly; no test tries all computations.", "anchors": ["src/schemes/bsw/mod.rs: setup, encrypt", "src/schemes/ghw11/mod.rs: setup, encrypt", "src/schemes/lsw/mod.rs: setup, encrypt", "src/schemes/yct14/mod.rs: setup, encrypt", "src/schemes/ac17/mod.rs: setup, cp_encrypt, kp_encrypt", "src/schemes/aw11/mod.rs: setup, authgen, encrypt", "src/schemes/bdabe/mod.rs: setup, request_attribute_pk, encrypt", "src/schemes/mke08/mod.rs: setup, request_authority_pk, encrypt"]}
{"id": "C78", "title": "Leaf objects mean the same as bare leaves", "statement": "Replacing a leaf object around an attribute by the bare attribute changes no result of a helper on policy values: pruning, shares, coefficients, span program, normal form check, conversion to normal form, traversal and serialisation.", "quantifier": "all policy values, also those no parser produces, all attribute lists, keys, secrets and random streams", "why_tests_cant": "The parsers never produce leaf objects, so no test feeds one to the public helper functions.", "anchors": ["src/utils/policy/pest/mod.rs:26-37: PolicyType, PolicyValue", "src/utils/tools/mod.rs:31-68: traverse_policy, get_value", "src/utils/secretsharing/mod.rs:9-201", "src/utils/policy/msp.rs:78-147", "src/utils/policy/dnf.rs:103-231"]}
{"id": "C79", "title": "An error message names the language and the line of the refused policy", "statement": "The text shown for a policy that the grammar refuses determines the policy language and the last line of the location of the error; the text of an error of the field arithmetic determines the error.", "quantifier": "both languages, all error locations, all errors of field elements", "why_tests_cant": "Tests only check that an error is returned, not what it says.", "anchors": ["src/error.rs:16-81", "src/utils/policy/pest/mod.rs:38-66: parse"]}
{"id": "C80", "title": "YCT14: one key opens only ciphertexts whose attributes satisfy its policy", "statement": "The owner of one key chooses a computation with group operations from the key. If the attributes of a ciphertext do not satisfy the policy of the key, then over all random numbers of setup, keygen and encrypt the computation yields the session element for a fraction of at most 2/q, q the order of the groups.", "quantifier": "all policies, universes, attribute lists, all computations chosen from the key, all further known group elements", "why_tests_cant": "decrypt refuses such ciphertexts, so tests see an error; whether the key material suffices is not visible to a test.", "anchors": ["src/schemes/yct14/mod.rs: setup, keygen, encrypt", "src/utils/secretsharing/mod.rs:82-141: gen_shares_policy, gen_shares"]}
{"id": "C81", "title": "GHW11: the transformation service opens no ciphertext", "statement": "A service holds the transformation keys of any number of users, also of users whose attributes satisfy the policy, but no retrieve key. Every fixed computation with group operations and pairings on these keys, the public key, a ciphertext and further ciphertexts yields the session element of the ciphertext for at most the fraction 3/q of the choices of alpha, the encryption secret, the session element and the random numbers of the users' keys, q the order of the groups.", "quantifier": "all policies, plaintexts, numbers of users, attribute lists, computations, further ciphertexts and further known group elements", "why_tests_cant": "transform returns a value that looks random in every run; a test cannot try all computations a service could make.", "anchors": ["src/schemes/ghw11/mod.rs: setup, keygen, tkgen, encrypt"]}
{"id": "C82", "title": "Console: the exit status tells whether the requested work was done", "statement": "The console program ends with status 0 exactly if a command was named and the library carried it out for the named scheme and policy language; an error gives status 1. In all cases the files are those the command leaves.", "quantifier": "all command lines that the argument parser lets through, all file systems and random numbers", "why_tests_cant": "Scripts rely on the status; a test of single command lines does not show that every scheme, language and command name reaches the right code.", "anchors": ["rabe-console/src/mod.rs:469-513: main, run"]}
{"id": "C83", "title": "A decryption that succeeds returns the plaintext that was encrypted", "statement": "Take an honestly made ciphertext, change everything but the payload bytes (policy, group elements, attribute components) and decrypt with any key object, honest or not. If the result is not an error, it is the plaintext of the sender, unless the recovered element derives a different symmetric key under which the cipher accepts the same payload. For GHW11 this holds for every answer of the transformation service and every retrieve key.", "quantifier": "all schemes, all keys, all changes outside the payload, all plaintexts, policies, attribute lists and random tapes", "why_tests_cant": "Tests decrypt unchanged ciphertexts with honest keys; here key and ciphertext are chosen by an adversary.", "anchors": ["src/schemes/bsw/mod.rs: encrypt, decrypt", "src/schemes/aw11/mod.rs: encrypt, decrypt", "src/schemes/lsw/mod.rs: encrypt, decrypt", "src/schemes/yct14/mod.rs: encrypt, decrypt", "src/schemes/bdabe/mod.rs: encrypt, decrypt", "src/schemes/mke08/mod.rs: encrypt, decrypt", "src/schemes/ac17/mod.rs: cp_encrypt, cp_decrypt, kp_encrypt, kp_decrypt", "src/schemes/ghw11/mod.rs: encrypt, decrypt_out", "src/utils/aes/mod.rs:10-44: encrypt_symmetric, decrypt_symmetric"]}
{"id": "C84", "title": "AW11: users open together only what their attributes together allow", "statement": "Any number of users, with any identities and keys from any authorities, put their keys together. If the attributes of all of them together do not satisfy the policy of a ciphertext, every fixed computation with group operations and pairings on these keys, the public keys, the ciphertext and further ciphertexts yields the session element for at most the fraction 2/q of the choices of the random numbers of the encryption, the session element and the secret of some attribute, q the order of the groups.", "quantifier": "all policies, attribute names, numbers of users and authorities, identities, requests, computations, further ciphertexts and further known group elements", "why_tests_cant": "decrypt refuses such keys, so tests see an error; whether the key material suffices when several users cooperate is not visible to a test.", "anchors": ["src/schemes/aw11/mod.rs: authgen, keygen, add_to_attribute, encrypt", "src/utils/secretsharing/mod.rs:82-141: gen_shares_policy, gen_shares", "src/utils/secretsharing/mod.rs: remove_index"]}
{"id": "C85", "title": "AW11: two users open nothing together that neither opens alone", "statement": "Two users whose identities have different hashes put their keys together; they may have attributes in common. If neither of them alone satisfies the policy of a ciphertext, every fixed computation with group operations and pairings on both keys, the public keys, the ciphertext and further ciphertexts yields the session element for at most the fraction 3/q of the choices of the secrets of all attributes, the random numbers of the encryption and the session element. For any number of users there is a condition on the policy, the names and the hashes of the identities (no change of the two sharings that changes the secret is invisible to every key component) that decides exactly whether one computation always opens or every computation opens for at most 3/q of the choices.", "quantifier": "all policies, attribute names, authorities, identities, requests, computations, further ciphertexts and further known group elements; the exact condition for all numbers of users", "why_tests_cant": "decrypt works with one key; which combinations of several keys open a ciphertext is not visible to a test, and the answer for two users differs from the one for three (C41).", "anchors": ["src/schemes/aw11/mod.rs: authgen, keygen, add_to_attribute, encrypt", "src/utils/secretsharing/mod.rs:82-141: gen_shares_policy, gen_shares", "src/utils/secretsharing/mod.rs: remove_index"]}
{"id": "C86", "title": "MKE08, BDABE: a coalition opens a conjunction exactly if one member has a key of every authority in it", "statement": "Users of MKE08 or BDABE put their keys together. Write the terms the code makes of the policy as vectors with one entry for every authority, the sum of the exponents of its attributes in the term. If in every term each member lacks a key from some authority with a non-zero entry, every fixed computation with group operations and pairings on the public keys, all keys of all members, the ciphertext and further ciphertexts yields the session element for at most the fraction 4/q of the choices of the master secrets, the common points, the secrets of authorities and members and the random numbers of the encryption, q the order of the groups. Conversely, if one member has a key from every such authority, or the vector is zero, one computation yields the session element in every run.", "quantifier": "all policies, attribute and authority names, numbers of authorities and members, requests, computations and further ciphertexts", "why_tests_cant": "decrypt works with one key and refuses missing attributes, so tests see an error; whether the combined key material of several users suffices is not visible to a test.", "anchors": ["src/schemes/mke08/mod.rs: setup, authgen, keygen, request_authority_pk, request_authority_sk, encrypt", "src/schemes/bdabe/mod.rs: setup, authgen, keygen, request_attribute_pk, request_attribute_sk, encrypt", "src/utils/policy/dnf.rs: json_to_dnf"]}
{"id": "C87", "title": "Console: a refusal of the library is reported with status 1 and changes no file", "statement": "Whenever a library function called by a command of the console returns an error (or None), all files it needs being present, the program ends with exit status 1 and the files are as before.", "quantifier": "all schemes, commands, arguments, file contents, random numbers and both serialisation features", "why_tests_cant": "Refusals arise in every scheme for different reasons; tests run the commands with arguments that work.", "anchors": ["rabe-console/src/mod.rs: run_keygen, run_encrypt, run_decrypt, run_delegate, run_authgen, run_req_attr_pk, run_req_attr_sk", "rabe-console/src/main.rs: main"]}
{"id": "C88", "title": "Console: exactly which files can be read as an object", "statement": "An object is read from a file exactly if the file is a text whose second line, as lines are separated by LF or CR LF, spells in hexadecimal digits of either case, with blanks and tabs anywhere, bytes that decompress to the serialised object; nothing else in the file matters, in particular neither header nor footer. The program aborts exactly if the file is missing, is no UTF-8 text or has no second line; in all other cases it reports an error.", "quantifier": "all file systems, file contents, types of objects and both serialisation features", "why_tests_cant": "The set of byte strings is infinite; tests read files that the program has written.", "anchors": ["rabe-console/src/mod.rs: ser_dec, ser_dec_bin", "src/utils/file/mod.rs: read_file, read_raw"]}
{"id": "C89", "title": "YCT14: which ciphertexts a given set of keys opens", "statement": "Any number of users of YCT14 have keys for any policies. Either in every run that gives these keys the master secret is the same combination of the exponents of the attributes of a ciphertext; then one computation on the public key and the ciphertext finds the session element in all these runs. Or every fixed computation (chosen with knowledge of the keys) on the public key, the ciphertext, further ciphertexts and their session elements finds it for at most the fraction 2/(q-n) of the choices of the random numbers of setup, key generation and encryption with which the users get these keys, q the order of the groups, n the number of attributes. If the attributes satisfy the policy of one key, the first case holds; if no attribute occurs twice in all the policies together and no component of a key is zero, it holds only then.", "quantifier": "all keys, policies, numbers of users, universes, attribute sets, computations and further ciphertexts", "why_tests_cant": "decrypt uses one key and refuses attributes that do not satisfy its policy; whether the components of several keys together determine the session element is not visible to a test.", "anchors": ["src/schemes/yct14/mod.rs: setup, keygen, encrypt", "src/utils/secretsharing/mod.rs: gen_shares_policy"]}
{"id": "C90", "title": "The length of a serialised key or ciphertext is known from names, policy and plaintext length", "statement": "For every key and every ciphertext made by key generation and encryption of BSW, AC17 (both variants), LSW, YCT14, AW11, BDABE and MKE08, the borsh encoding has exactly the length given by a formula in the attribute names, the policy text and its leaves (or the matrix, or the normal form) and the length of the plaintext; it fails exactly if one of the counts is 2^32 or more. In particular ciphertexts of plaintexts of the same length under the same policy have the same length.", "quantifier": "all names, policies, plaintexts, random numbers; all encodings of group elements with a fixed length", "why_tests_cant": "a test measures the length for a few inputs; a length that depends on the random numbers or on the contents of the plaintext, or a count that overflows its field, shows only for inputs nobody tries.", "anchors": ["src/schemes/bsw/mod.rs: derive BorshSerialize", "src/schemes/ac17/mod.rs: derive BorshSerialize", "src/schemes/lsw/mod.rs: derive BorshSerialize", "src/schemes/aw11/mod.rs: derive BorshSerialize", "src/utils/aes/mod.rs: encrypt_symmetric"]}
{"id": "C91", "title": "The nesting of the parser is bounded by a constant", "statement": "There is a number L such that for no policy text, in neither language, the recursive rule node of the parser is entered more than L times inside one another, so that a text received from somebody else cannot exhaust the stack.", "quantifier": "all policy texts, accepted or refused, in both languages", "why_tests_cant": "a test parses policies of moderate nesting; how the depth grows with the text, and that no text exceeds a limit, is a statement about all texts.", "anchors": ["src/human.policy.pest: node, term", "src/json.policy.pest: node", "src/utils/policy/pest/human.rs: parse", "src/utils/policy/pest/json.rs: parse"]}
{"id": "C92", "title": "Dishonest authorities open only what their own attributes allow", "statement": "In AW11, MKE08 and BDABE, authorities that cooperate with one another and with any users, using their secret keys and publishing keys as they like, cannot compute the session element of a ciphertext unless their own attributes together with those of the users satisfy the policy (for MKE08 and BDABE: unless in some conjunction one user has keys from every authority outside the coalition).", "quantifier": "all sets of dishonest authorities and their secrets, all coalitions of users, all key requests, all policies, all fixed generic computations, counted over the random choices of the honest parties", "why_tests_cant": "a test lets every authority follow the protocol; a statement about all computations of dishonest ones cannot be sampled.", "anchors": ["src/schemes/aw11/mod.rs: authgen, keygen, encrypt", "src/schemes/mke08/mod.rs: authgen, request_authority_pk, encrypt", "src/schemes/bdabe/mod.rs: authgen, request_attribute_pk, encrypt"]}
{"id": "C93", "title": "Replacing the policy stored in a key gives no additional access", "statement": "In AC17 KP-ABE, LSW and YCT14 the policy is a text in the secret key next to the components. If the attributes of a ciphertext do not satisfy the policy the key was generated for, decryption does not succeed with the right session element after the text in the key is overwritten, whatever the new text is.", "quantifier": "all key policies, all attribute lists that do not satisfy them, all replacement texts, all random numbers", "why_tests_cant": "a test can try some replacement texts on some keys; that no text of any length and in either language helps needs a proof.", "anchors": ["src/schemes/ac17/mod.rs: kp_keygen, kp_decrypt", "src/schemes/lsw/mod.rs: keygen, decrypt", "src/schemes/yct14/mod.rs: keygen, decrypt"]}
{"id": "C94", "title": "Programs that use the C interface as intended are memory safe and get the results of the library", "statement": "A program may call the functions of the C interface in any order. If it passes only pointers it was handed with that type and has not released since, no call accesses memory outside of existing objects; every function can be called this way; objects do not change until they are released, other calls do not disturb them, nothing leaks except what the program does not release; and decrypting a stored ciphertext with a stored key gives the plaintext exactly if the names satisfy the policy. A pointer that was released, or is of another type, is refused by every function or has no defined result.", "quantifier": "all programs (lists of calls of any length and order, with any arguments), all allocators that may use addresses again, all random tapes", "why_tests_cant": "tests run a few call sequences; memory errors in other sequences, and calls that happen to survive them, are invisible.", "anchors": ["src/ffi/bsw.rs: rabe_bsw_context_create, rabe_bsw_context_destroy, rabe_bsw_keygen, rabe_bsw_keygen_destroy, rabe_bsw_delegate, rabe_bsw_encrypt, rabe_bsw_decrypt_get_size, rabe_bsw_decrypt"]}
{"id": "C95", "title": "Spacing and comments do not change a policy", "statement": "Two policy texts with the same tokens (brackets, colons, commas, keywords, texts in quotes), but with different white space, line breaks or comments around the tokens, are both accepted or both rejected. If accepted they have the same tree, the same attributes and the same meaning, and every scheme treats them alike: with the same random numbers encryption and key generation give the same output apart from the stored text, and replacing the text in a ciphertext or key by the other one does not change the result of decryption.", "quantifier": "all token sequences, all placements of white space and comments, both languages, all keys, ciphertexts and random numbers", "why_tests_cant": "a test reformats a few policies; that no comment or line break anywhere changes the meaning or the result of decryption is a statement about all layouts.", "anchors": ["src/human.policy.pest: WHITESPACE, COMMENT", "src/json.policy.pest: WHITESPACE, COMMENT", "src/utils/policy/pest/human.rs: parse", "src/utils/policy/pest/json.rs: parse", "src/utils/policy/msp.rs: lw", "src/utils/policy/dnf.rs: dnf", "src/utils/secretsharing/mod.rs: node_index, calc_pruned"]}
{"id": "C96", "title": "Everything the console offers can be said on its command line, and the documented calls work", "statement": "For every command and every assignment of values that its declared arguments allow there are words of a command line that make the program run this command with these values; whatever the words, the program runs a command only with an allowed assignment; and the calls shown in the README of the console, one after another, give a key with the two attributes, a ciphertext for their conjunction and finally the message.", "quantifier": "all lists of words, all assignments, all schemes, environments, file contents and random numbers", "why_tests_cant": "a test runs a few command lines; that no command line at all reaches an argument, or that a documented session fails for every message and every run, is a statement about all of them.", "anchors": ["rabe-console/src/mod.rs: main, run", "rabe-console/README.md"]}
{"id": "C97", "title": "A stored object is read back whatever the arrangement of its fields, and only as the kind of object it is", "statement": "Under the serde feature every object is read back from any map that gives each of its fields its value once, whatever the order of the entries, whether fields are named by number, name or the bytes of the name, and whatever unknown entries there are, and from the sequence of the values; a map that gives a field twice or lacks one is refused; and what was written as an object of one kind is not accepted as an object of another kind.", "quantifier": "all structure types of all schemes, all values, all maps and sequences", "why_tests_cant": "there are infinitely many arrangements and unknown entries, and a test of one pair of kinds says nothing about the values that make another pair collide.", "anchors": ["src/schemes/*/mod.rs: #[derive(Serialize, Deserialize)]", "src/utils/policy/pest/mod.rs: PolicyLanguage", "rabe-console/src/mod.rs: ser_dec, run_keygen"]}
{"id": "C98", "title": "The language a policy is written in does not matter", "statement": "If two texts, in the human or the JSON language, denote the same tree of gates and attributes, every scheme treats them alike: the same span program and normal form; with the same random numbers the same keys and ciphertexts apart from the stored text and the column numbers in labels; every key gets the same result from the two ciphertexts, and two keys give the same result on every ciphertext. The JSON text that the library writes for an accepted policy is such a text, and storing it instead of the original in a key or ciphertext does not change what decryption returns.", "quantifier": "all pairs of texts with the same tree, both languages, all keys, ciphertexts, messages and random numbers", "why_tests_cant": "a test compares a few policies in both languages; that no tree, no key and no random numbers tell them apart is a statement about all of them.", "anchors": ["src/utils/policy/pest/mod.rs: parse, serialize_policy", "src/utils/policy/msp.rs: lw", "src/utils/policy/dnf.rs: dnf", "src/utils/secretsharing/mod.rs: gen_shares_policy, calc_coefficients, calc_pruned", "src/schemes/*/mod.rs: encrypt, keygen, decrypt"]}
{"id": "C99", "title": "The examples in the documentation work", "statement": "Each of the eight examples in the module documentation of the schemes (set-up, key generation, encryption and decryption with fixed names and a fixed policy, every result unwrapped and the decrypted text compared with the plaintext) ends normally, whatever the random numbers, for every plaintext that is not empty and that the symmetric encryption accepts.", "quantifier": "all environments, plaintexts and random numbers", "why_tests_cant": "a documentation test runs each example once with fresh random numbers; the random numbers for which an example aborts have negligible probability and are never drawn.", "anchors": ["src/schemes/ac17/mod.rs:13-37", "src/schemes/aw11/mod.rs: module documentation", "src/schemes/bdabe/mod.rs:13-27", "src/schemes/bsw/mod.rs:13-22", "src/schemes/lsw/mod.rs:13-22", "src/schemes/mke08/mod.rs:13-32", "src/schemes/yct14/mod.rs:22-31"]}
{"id": "C100", "title": "Only the needed public keys matter to encryption", "statement": "In AW11, BDABE and MKE08, which take the public keys of the authorities as a list, the ciphertext depends (for given random numbers) only on the public keys of the attributes that the policy mentions: the order of the list, keys of other attributes and keys given again change neither the ciphertext nor whether encryption succeeds.", "quantifier": "all environments, policies in both languages, lists of public keys, plaintexts and random numbers", "why_tests_cant": "a test uses the list in one order with exactly the needed keys; that no order, no further key and no repetition changes anything is a statement about all lists.", "anchors": ["src/schemes/aw11/mod.rs:241-300", "src/schemes/aw11/mod.rs: find_pk_attr", "src/schemes/bdabe/mod.rs: encrypt", "src/schemes/mke08/mod.rs: encrypt", "src/utils/policy/dnf.rs: dnf"]}
{"id": "C101", "title": "Every list of attributes is accepted or refused, none aborts", "statement": "Key generation and delegation (ciphertext-policy schemes), encryption (key-policy schemes) and the set-up and key generation of an AW11 authority refuse the empty list of attributes, succeed for every other list of attributes that the key or authority is responsible for, refuse all other lists, and never abort because of the attributes.", "quantifier": "all lists of attributes and plaintexts, all keys made by set-up (BSW delegation: all keys), all random numbers, all environments", "why_tests_cant": "Tests use one or two lists of known attributes; empty lists, foreign attributes and names in the other case are never passed.", "anchors": ["src/schemes/bsw/mod.rs:125-206", "src/schemes/ghw11/mod.rs:123-152", "src/schemes/ac17/mod.rs:191-264", "src/schemes/ac17/mod.rs:556-616", "src/schemes/lsw/mod.rs:180-219", "src/schemes/yct14/mod.rs: encrypt, public_from", "src/schemes/aw11/mod.rs:121-231"]}
{"id": "C102", "title": "The random numbers never make key creation abort", "statement": "Set-up of every scheme, creation of authorities and users by name, GHW11 transformation keys, and key generation of AC17 KP-ABE (policies with two operands at every `and`) and YCT14 for an accepted policy succeed for all random numbers, those of the set-up before it included.", "quantifier": "all random numbers, environments, names, universes of attributes, policies in both languages", "why_tests_cant": "the random numbers that make a function abort have negligible probability and are never drawn by a test; that no other random numbers do is a statement about all of them.", "anchors": ["src/schemes/bsw/mod.rs: setup", "src/schemes/ghw11/mod.rs: setup, tkgen", "src/schemes/ac17/mod.rs: setup, cp_keygen, kp_keygen", "src/schemes/yct14/mod.rs: setup, keygen", "src/schemes/lsw/mod.rs: setup", "src/schemes/aw11/mod.rs: setup", "src/schemes/bdabe/mod.rs: setup, authgen, keygen", "src/schemes/mke08/mod.rs: setup, authgen, keygen"]}
{"id": "C103", "title": "GHW11: the blinding does not change the result, and only its own retrieval key undoes it", "statement": "The outcome of transforming a ciphertext with a transformation key and finishing with the retrieval key made together with it is the same for all blinding numbers, for ciphertexts, keys and payloads of any origin. For an honest ciphertext whose policy the attributes satisfy, any other retrieval key gives another element than the session element (unless the exponent of the set-up, the secret of the encryption or the pairing of the generators is zero), and what the service returns for two users is the same up to the blinding.", "quantifier": "all keys, ciphertexts, payloads and random numbers; for the second sentence all retrieval keys, all policies on one line with at least two operands at every gate, and all attribute lists that share no name with an underscore with the policy", "why_tests_cant": "a test draws one blinding number and uses the matching retrieval key; independence of the number and failure of every other key are statements about all of them.", "anchors": ["src/schemes/ghw11/mod.rs:156-186", "src/schemes/ghw11/mod.rs:227-304"]}
{"id": "C104", "title": "The unit tests of the modules bsw and ghw11 pass", "statement": "Each of the nine unit tests of the module bsw and the three of the module ghw11 (set-up, key generation, encryption, decryption with attributes that satisfy the policy and the plaintext compared, decryption with attributes that do not and the refusal checked) ends normally, whatever the random numbers, for every plaintext that the symmetric encryption accepts in place of the fixed one.", "quantifier": "all environments, plaintexts and random numbers; the form common to the tests also for all policies and lists of attributes that meet what the test expects", "why_tests_cant": "a test runs once with fresh random numbers; the random numbers for which it fails have negligible probability, so running it says nothing about whether it can fail.", "anchors": ["src/schemes/bsw/mod.rs:321-602", "src/schemes/ghw11/mod.rs:307-450"]}
{"id": "C105", "title": "The unit tests of the modules ac17, lsw and yct14 pass", "statement": "Each of the seven unit tests of the module ac17, the four of the module lsw and the one of the module yct14 (set-up, encryption, key generation, and decryption that returns the plaintext or, in the tests named not, is refused) ends normally, whatever the random numbers, for every plaintext that is not empty and that the symmetric encryption accepts in place of the fixed one.", "quantifier": "all environments, plaintexts and random numbers; the forms common to the tests also for all policies and lists of attributes that meet what the test expects", "why_tests_cant": "a test runs once with fresh random numbers; the random numbers for which it fails have negligible probability, so running it says nothing about whether it can fail.", "anchors": ["src/schemes/ac17/mod.rs:678-810", "src/schemes/lsw/mod.rs:293-374", "src/schemes/yct14/mod.rs:368-395"]}
{"id": "C106", "title": "The unit tests of the module aw11 pass", "statement": "Each of the four unit tests of the module aw11 (set-up, two or three authorities, a key from one authority extended by another, encryption, and decryption that returns the plaintext or, in the test not, is refused) ends normally, whatever the random numbers, for every plaintext that the symmetric encryption accepts in place of the fixed one. With other attributes of the second authority and another policy over the attributes of both, decryption returns the plaintext if the key satisfies the policy and an error if not.", "quantifier": "all environments, plaintexts, random numbers and conversions to upper case that leave the letters A to I as they are; for the second sentence all lists of attributes of the second authority and all policies on one line with two operands at every and", "why_tests_cant": "a test runs once with fresh random numbers and one policy; that no random numbers make it fail is a statement about all of them.", "anchors": ["src/schemes/aw11/mod.rs:393-562"]}
{"id": "C107", "title": "The unit tests of the modules mke08 and bdabe pass", "statement": "Each of the three unit tests of the module mke08 and the four of the module bdabe (set-up, two or three authorities, a user key extended by attributes of these, encryption, and decryption that returns the plaintext or, in the test not, is refused) ends normally, whatever the random numbers, for every plaintext that the symmetric encryption accepts in place of the fixed one; this although in both tests or and in the test or_and of bdabe a public key of the policy is not given to encryption.", "quantifier": "all environments, plaintexts and random numbers; the form common to the tests also for all attributes of the two authorities and all policies in disjunctive form", "why_tests_cant": "a test runs once with fresh random numbers and one policy; that no random numbers make it fail is a statement about all of them.", "anchors": ["src/schemes/mke08/mod.rs:501-618", "src/schemes/bdabe/mod.rs:492-661"]}
{"id": "C108", "title": "The unit tests of secret sharing, of the disjunctive form and of the symmetric encryption pass", "statement": "The unit tests of the utilities that draw random numbers or use group elements end normally, whatever these are: test_secret_sharing_or, test_secret_sharing_and, test_gen_shares_json, the second part of test_dnf_from and correctness_test1 of aes. For other inputs: from all shares of gen_shares with as many needed as there are, the secret is recovered under an AND of as many attributes; from any one share with one needed, under an OR; and shares and coefficients are equal in number for every text whose parsing does not abort.", "quantifier": "all secrets, random numbers, elements of the public keys, symmetric keys and accepted plaintexts; all numbers of attributes; all policy texts", "why_tests_cant": "a test runs once with fresh random numbers, two attributes and one policy.", "anchors": ["src/utils/secretsharing/mod.rs:228-283", "src/utils/policy/dnf.rs:269-305", "src/utils/aes/mod.rs:59-68"]}
