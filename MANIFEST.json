{
 "claims": [
  {
   "property": "C01",
   "status": "proved",
   "theorems": [
    "Rabe.C01_parse_well_formed"
   ],
   "note": "Any text, both languages, any length."
  },
  {
   "property": "C02",
   "status": "partial",
   "theorems": [
    "Rabe.C02_human_panic_iff",
    "Rabe.C02_json_panic_iff_partial",
    "Rabe.C02_json_panic_exact",
    "Rabe.C02_violated",
    "Rabe.C02_parse_no_panic_partial"
   ],
   "note": "Violated: a number token makes parse abort (C02_violated). Exact characterisation for all texts: the human parser aborts iff a number stands in the place of an attribute in a text of the language (C02_human_panic_iff); the JSON parser iff one does in a text of the JSON language with the preference of C59 (C02_json_panic_exact), which on texts without '/*' is the JSON language; no text without decimal digits aborts."
  },
  {
   "property": "C03",
   "status": "proved",
   "theorems": [
    "Rabe.C03_json_roundtrip",
    "Rabe.C03_json_text"
   ],
   "note": "For every text accepted in either language; equality up to the recorded columns (Pol.Same), which depend on the layout of the text."
  },
  {
   "property": "C04",
   "status": "partial",
   "theorems": [
    "Rabe.C04_violated",
    "Rabe.C04_human_roundtrip_partial"
   ],
   "note": "Violated for every parsed policy: names are written without quotes, the text is never accepted again (C04_violated). Partial: the round trip works for trees whose stored names carry quotes."
  },
  {
   "property": "C05",
   "status": "partial",
   "theorems": [
    "Rabe.C05_violated",
    "Rabe.C05_labels_distinct_partial"
   ],
   "note": "Violated for texts with newlines (C05_violated): the label uses the column only. Proved for all texts without a newline."
  },
  {
   "property": "C06",
   "status": "proved",
   "theorems": [
    "Rabe.C06_mixed_rejected"
   ],
   "note": "Any operands, spellings, order, depth of brackets and any text after the second operator (relation Mixed in Spec/Grammar.lean)."
  },
  {
   "property": "C07",
   "status": "proved",
   "theorems": [
    "Rabe.C07_human_expressible",
    "Rabe.C07_json_expressible"
   ],
   "note": "Human: all trees whose gates have at least two children; JSON: all trees. Equality up to columns."
  },
  {
   "property": "C08",
   "status": "proved",
   "theorems": [
    "Rabe.C08_check_iff_sat"
   ],
   "note": "Any accepted text and any attribute list, including the empty list."
  },
  {
   "property": "C09",
   "status": "proved",
   "theorems": [
    "Rabe.C09_check_monotone",
    "Rabe.C09_check_order_independent"
   ],
   "note": "Monotonicity and independence of order/repetition."
  },
  {
   "property": "C10",
   "status": "proved",
   "theorems": [
    "Rabe.C10_pruning",
    "Rabe.C10_pruning_human",
    "Rabe.C10_narrow_gate_aborts"
   ],
   "note": "Exact characterisation for trees with gates of at least two children, which all human-language policies have; narrower gates abort."
  },
  {
   "property": "C11",
   "status": "partial",
   "theorems": [
    "Rabe.C11_minimal_sets_reconstruct",
    "Rabe.C11_pruned_positions_reconstruct",
    "Rabe.C11_violated_multiline",
    "Rabe.C11_violated_narrow",
    "Rabe.C11_tree_shares_reconstruct_partial"
   ],
   "note": "Proved for every accepted policy and every minimal authorised selection of leaf positions, and for the pruned positions when gates have at least two children. Looking shares up by label, as the schemes do, needs distinct labels; violated for multi-line policies with colliding labels and for one-child gates (the pruning aborts)."
  },
  {
   "property": "C12",
   "status": "proved",
   "theorems": [
    "Rabe.C12_unauthorised_shares_hide_secret"
   ],
   "note": "Perfect hiding: a bijective shift of the randomness maps one secret to another without changing visible shares."
  },
  {
   "property": "C13",
   "status": "proved",
   "theorems": [
    "Rabe.C13_shares_shape",
    "Rabe.C13_k_shares_reconstruct",
    "Rabe.C13_fewer_shares_hide_secret"
   ],
   "note": "Shape, reconstruction and hiding for every k, n."
  },
  {
   "property": "C14",
   "status": "partial",
   "theorems": [
    "Rabe.C14_label_injective",
    "Rabe.C14_strip_partial",
    "Rabe.C14_violated"
   ],
   "note": "Injectivity proved in full. Stripping is violated for attribute names containing '_' (C14_violated); exact characterisation in C14_strip_partial."
  },
  {
   "property": "C15",
   "status": "proved",
   "theorems": [
    "Rabe.C15_span_program_complete",
    "Rabe.C15_span_program_positions"
   ],
   "note": "Every accepted text with pairwise different leaves; rows of the selected leaves sum to the target vector. C15_span_program_positions covers every accepted text, also with two leaves of the same name and column."
  },
  {
   "property": "C16",
   "status": "proved",
   "theorems": [
    "Rabe.C16_span_program_sound_witness",
    "Rabe.C16_span_program_sound"
   ],
   "note": "Soundness with an explicit orthogonal witness, and the span statement derived from it."
  },
  {
   "property": "C17",
   "status": "proved",
   "theorems": [
    "Rabe.C17_span_program_shape"
   ],
   "note": "Entries in {-1,0,1}, width 1 + number of AND gates, one row per leaf, rows sorted by label."
  },
  {
   "property": "C18",
   "status": "partial",
   "theorems": [
    "Rabe.C18_violated",
    "Rabe.C18_span_program_defined_partial"
   ],
   "note": "Violated: AND gates with a number of children other than two, or narrow OR gates, abort (C18_violated). Proved: exact condition for success."
  },
  {
   "property": "C19",
   "status": "partial",
   "theorems": [
    "Rabe.C19_dnf_meaning_partial",
    "Rabe.C19_violated_general",
    "Rabe.C19_violated",
    "Rabe.C19_violated_missing_key",
    "Rabe.C19_dnf_terms",
    "Rabe.C19_dnf_covers",
    "Rabe.C19_violated_later"
   ],
   "note": "Violated for every policy with a conjunction as second or later disjunct (C19_violated_general, for any public keys C19_violated_later) and for missing public keys. Proved for policies in which at most the first disjunct is a conjunction. C19_dnf_terms and C19_dnf_covers give the exact result for every policy and every list of public keys."
  },
  {
   "property": "C20",
   "status": "partial",
   "theorems": [
    "Rabe.C20_violated",
    "Rabe.C20_dnf_convertible_partial"
   ],
   "note": "Violated for nested gates of the same kind (C20_violated). Proved: exact set of convertible trees; conversion implies the check."
  },
  {
   "property": "C21",
   "status": "proved",
   "theorems": [
    "Rabe.C21_dnf_check",
    "Rabe.C21_dnf_check_values"
   ],
   "note": "All parsed policies."
  },
  {
   "property": "C22",
   "status": "partial",
   "theorems": [
    "Rabe.C22_dnf_complete_partial",
    "Rabe.C22_violated",
    "Rabe.C22_dnf_nonempty",
    "Rabe.C22_dnf_term_products",
    "Rabe.C22_dnf_sorted"
   ],
   "note": "Violated for JSON AND gates without children (C22_violated): satisfied by everybody, but no conjunction is listed. Proved for all policies without such gates; term products and order of the terms for all policies."
  },
  {
   "property": "C23",
   "status": "proved",
   "theorems": [
    "Rabe.C23_framing_lossless",
    "Rabe.C23_encrypt_total"
   ],
   "note": "For every nonce, key element and payload, for any AEAD with dec(enc)=id."
  },
  {
   "property": "C24",
   "status": "partial",
   "theorems": [
    "Rabe.C24_violated",
    "Rabe.C24_no_abort_partial"
   ],
   "note": "Violated for payloads shorter than 12 bytes (abort, C24_violated); all longer payloads give Ok or Err."
  },
  {
   "property": "C25",
   "status": "partial",
   "theorems": [
    "Rabe.Bsw.C25_bsw_correct_partial",
    "Rabe.Bsw.C25_bsw_defined",
    "Rabe.Bsw.C25_violated_narrow",
    "Rabe.Bsw.C25_violated_underscore",
    "Rabe.Bsw.C25_violated_multiline"
   ],
   "note": "Violated for gates with fewer than two children, owned attribute names with '_' and multi-line policies. Proved for all other policies, keys and messages."
  },
  {
   "property": "C26",
   "status": "proved",
   "theorems": [
    "Rabe.Bsw.C26_bsw_refuses",
    "Rabe.Bsw.C26_bsw_decrypts_only_if_satisfied"
   ],
   "note": "Refusal for every unsatisfied policy, and the converse."
  },
  {
   "property": "C27",
   "status": "proved",
   "theorems": [
    "Rabe.Bsw.C27_delegated_key_is_issued_key",
    "Rabe.Bsw.C27_delegated_key_decrypts"
   ],
   "note": "Chains of delegations of any length."
  },
  {
   "property": "C28",
   "status": "proved",
   "theorems": [
    "Rabe.Bsw.C28_delegation_never_widens"
   ],
   "note": "Delegation never produces an attribute outside the original key."
  },
  {
   "property": "C29",
   "status": "partial",
   "theorems": [
    "Rabe.Bsw.C29_violated",
    "Rabe.Bsw.C29_violated_decrypts",
    "Rabe.Bsw.C29_no_splicing_partial"
   ],
   "note": "Violated: the hash exponent is public, so a key component for one attribute can be turned into one for any other (C29_violated, C29_violated_decrypts). Proved: splicing components of keys with different randomness gives a different message unless the randomness coincides."
  },
  {
   "property": "C30",
   "status": "partial",
   "theorems": [
    "Rabe.Ac17.C30_ac17_cp_correct_partial",
    "Rabe.Ac17.C30_ac17_cp_defined",
    "Rabe.Ac17.C30_violated_policy",
    "Rabe.Ac17.C30_violated_key"
   ],
   "note": "Violated when a common attribute is repeated in the policy or in the key (C30_violated_policy, C30_violated_key). Proved for all other keys, policies, randomness and messages; C75_ac17_cp_correct needs neither a single line nor single occurrences of attributes that pruning does not select."
  },
  {
   "property": "C31",
   "status": "proved",
   "theorems": [
    "Rabe.Ac17.C31_ac17_cp_refuses",
    "Rabe.Ac17.C31_ac17_cp_decrypts_only_if_satisfied"
   ],
   "note": "Refusal for every unsatisfied policy, and the converse."
  },
  {
   "property": "C32",
   "status": "partial",
   "theorems": [
    "Rabe.Ac17.C32_ac17_kp_correct_partial",
    "Rabe.Ac17.C32_ac17_kp_defined",
    "Rabe.Ac17.C32_violated_policy",
    "Rabe.Ac17.C32_violated_ciphertext"
   ],
   "note": "Violated when a common attribute is repeated in the policy or in the ciphertext. Proved otherwise, including the cancellation of the accumulated column terms for every matrix; C75_ac17_kp_correct needs neither a single line nor single occurrences of attributes that pruning does not select."
  },
  {
   "property": "C33",
   "status": "proved",
   "theorems": [
    "Rabe.Ac17.C33_ac17_kp_refuses",
    "Rabe.Ac17.C33_ac17_kp_decrypts_only_if_satisfied"
   ],
   "note": "Refusal for every unsatisfied policy, and the converse."
  },
  {
   "property": "C34",
   "status": "partial",
   "theorems": [
    "Rabe.Lsw.C34_lsw_correct_partial",
    "Rabe.Lsw.C34_lsw_defined",
    "Rabe.Lsw.C34_violated_repeated",
    "Rabe.Lsw.C34_violated_negative",
    "Rabe.Lsw.C34_violated_underscore",
    "Rabe.Lsw.C34_violated_narrow"
   ],
   "note": "Violated for repeated attributes in the policy, negative attributes ('!'), names with '_' among the owned attributes and gates with fewer than two children. Proved for all other policies, attribute lists, randomness and messages."
  },
  {
   "property": "C35",
   "status": "proved",
   "theorems": [
    "Rabe.Lsw.C35_lsw_refuses",
    "Rabe.Lsw.C35_lsw_decrypts_only_if_satisfied"
   ],
   "note": "Refusal for every unsatisfied policy with gates of at least two children; a successful decryption implies satisfaction for every policy."
  },
  {
   "property": "C36",
   "status": "partial",
   "theorems": [
    "Rabe.Yct14.C36_yct14_correct_partial",
    "Rabe.Yct14.C36_yct14_defined",
    "Rabe.Yct14.C36_violated_repeated",
    "Rabe.Yct14.C36_violated_underscore",
    "Rabe.Yct14.C36_violated_narrow",
    "Rabe.Yct14.C36_violated_outside"
   ],
   "note": "Violated for repeated attributes in the policy, names with '_' among the owned attributes, gates with fewer than two children; a policy attribute outside the universe gives a useless leaf. Proved for all other policies, universes, attribute lists, randomness and messages."
  },
  {
   "property": "C37",
   "status": "proved",
   "theorems": [
    "Rabe.Yct14.C37_yct14_refuses",
    "Rabe.Yct14.C37_yct14_decrypts_only_if_satisfied"
   ],
   "note": "Refusal for every unsatisfied policy with gates of at least two children; a successful decryption implies satisfaction for every policy."
  },
  {
   "property": "C38",
   "status": "partial",
   "theorems": [
    "Rabe.Aw11.C38_aw11_correct_partial",
    "Rabe.Aw11.C38_aw11_defined_add",
    "Rabe.Aw11.C38_aw11_defined",
    "Rabe.Aw11.C38_violated_underscore",
    "Rabe.Aw11.C38_violated_same_name",
    "Rabe.Aw11.C38_violated_ternary"
   ],
   "note": "Violated as stated (attribute names with underscore abort, equal names at two authorities, AND gates with three children abort encrypt): C38_violated_*. Partial: any authorities with distinct names, any request history, any regular policy with upper-case names, the owned ones without underscore."
  },
  {
   "property": "C39",
   "status": "proved",
   "theorems": [
    "Rabe.Aw11.C39_aw11_refuses",
    "Rabe.Aw11.C39_aw11_decrypts_only_if_satisfied"
   ],
   "note": "Proved for arbitrary keys and ciphertexts."
  },
  {
   "property": "C40",
   "status": "partial",
   "theorems": [
    "Rabe.Aw11.C40_violated_keygen",
    "Rabe.Aw11.C40_violated_policy",
    "Rabe.Aw11.C40_aw11_authgen_partial",
    "Rabe.Aw11.C40_aw11_encrypt_partial"
   ],
   "note": "Violated in keygen/add_to_attribute (abort) and in decrypt (refusal). Holds for authgen and for the ciphertext components."
  },
  {
   "property": "C41",
   "status": "partial",
   "theorems": [
    "Rabe.Aw11.C41_violated_add",
    "Rabe.Aw11.C41_violated_keygen",
    "Rabe.Aw11.C41_violated_issued",
    "Rabe.Aw11.C41_aw11_spliced_partial",
    "Rabe.Aw11.C41_violated_siblings"
   ],
   "note": "Violated: two components for the same attribute and different identities give the component of any identity (C41_violated_add and its consequences). The users need no common attribute: for every policy A and (B or C), three users with one attribute each open the ciphertext (C41_violated_siblings). Partial: for one component without such a partner the session element is shifted."
  },
  {
   "property": "C42",
   "status": "partial",
   "theorems": [
    "Rabe.Ghw11.C42_ghw11_correct_partial",
    "Rabe.Ghw11.C42_ghw11_defined",
    "Rabe.Ghw11.C42_violated_underscore",
    "Rabe.Ghw11.C42_violated_multiline",
    "Rabe.Ghw11.C42_violated_narrow"
   ],
   "note": "Violated for gates with fewer than two children, owned attribute names with '_' and multi-line policies. Proved for all other policies, keys, blinding exponents and messages."
  },
  {
   "property": "C43",
   "status": "proved",
   "theorems": [
    "Rabe.Ghw11.C43_ghw11_refuses",
    "Rabe.Ghw11.C43_ghw11_transforms_only_if_satisfied"
   ],
   "note": "Refusal for every unsatisfied policy, and the converse."
  },
  {
   "property": "C44",
   "status": "partial",
   "theorems": [
    "Rabe.Bdabe.C44_bdabe_correct_partial",
    "Rabe.Bdabe.C44_bdabe_defined",
    "Rabe.Bdabe.C44_violated_nested",
    "Rabe.Bdabe.C44_violated_missing_key",
    "Rabe.Bdabe.C44_violated_empty_and",
    "Rabe.Bdabe.C44_violated_same_name"
   ],
   "note": "BDABE: proved for all histories of key requests when the authorities have different names, the encryptor has requested public keys for all attributes and the policy is not satisfied by the empty set. The unrestricted claim is false: nested gates of the same kind pass the check but abort encrypt; a disjunct without public key, an empty JSON AND, and two authorities of the same name make satisfying keys fail."
  },
  {
   "property": "C45",
   "status": "proved",
   "theorems": [
    "Rabe.Bdabe.C45_bdabe_refuses",
    "Rabe.Bdabe.C45_bdabe_decrypts_only_if_satisfied"
   ],
   "note": "BDABE: for every key and ciphertext of any origin, including the contrapositive."
  },
  {
   "property": "C46",
   "status": "partial",
   "theorems": [
    "Rabe.Mke08.C46_mke08_correct_partial",
    "Rabe.Mke08.C46_mke08_defined",
    "Rabe.Mke08.C46_violated_nested",
    "Rabe.Mke08.C46_violated_missing_key",
    "Rabe.Mke08.C46_violated_empty_and",
    "Rabe.Mke08.C46_violated_same_name"
   ],
   "note": "MKE08: proved for all histories of key requests when the authorities have different names, the encryptor has requested public keys for all attributes and the policy is not satisfied by the empty set. The unrestricted claim is false: nested gates of the same kind pass the check but abort encrypt; a disjunct without public key, an empty JSON AND, and two authorities of the same name make satisfying keys fail."
  },
  {
   "property": "C47",
   "status": "proved",
   "theorems": [
    "Rabe.Mke08.C47_mke08_refuses",
    "Rabe.Mke08.C47_mke08_decrypts_only_if_satisfied"
   ],
   "note": "MKE08: for every key and ciphertext of any origin, including the contrapositive."
  },
  {
   "property": "C48",
   "status": "proved",
   "theorems": [
    "Rabe.Bdabe.C48_bdabe_request",
    "Rabe.Bdabe.C48_bdabe_unique",
    "Rabe.Bdabe.C48_bdabe_bad_names",
    "Rabe.Mke08.C48_mke08_request",
    "Rabe.Mke08.C48_mke08_unique",
    "Rabe.Mke08.C48_mke08_bad_names"
   ],
   "note": "Requests succeed iff the attribute is authority, two colons, rest, with exactly one non-overlapping '::' whose first occurrence ends the authority name; both schemes. Three colons count as one occurrence; authority names that contain '::' or end with ':' can never issue."
  },
  {
   "property": "C49",
   "status": "partial",
   "theorems": [
    "Rabe.Bdabe.C49_violated_bdabe_general",
    "Rabe.Bdabe.C49_violated_bdabe",
    "Rabe.Bdabe.C49_bdabe_stored_policy_partial",
    "Rabe.Mke08.C49_violated_mke08_general",
    "Rabe.Mke08.C49_violated_mke08",
    "Rabe.Mke08.C49_mke08_stored_policy_partial",
    "Rabe.Ac17.C49_ac17_cp_stored_policy_partial",
    "Rabe.Ac17.C49_violated_ac17",
    "Rabe.Bsw.C49_bsw_stored_policy_partial",
    "Rabe.Bsw.C49_bsw_issued",
    "Rabe.Bsw.C49_violated_bsw",
    "Rabe.Ghw11.C49_ghw11_stored_policy_partial",
    "Rabe.Aw11.C49_aw11_stored_policy_partial",
    "Rabe.Aw11.C49_violated_aw11"
   ],
   "note": "False for BDABE and MKE08: a conjunction as second or later disjunct leaves its first attribute as a term of its own (general theorem and concrete run). Partial: for policies with at most the first disjunct a conjunction, replacing the text gives only what the constant symmetric key gives. BSW, GHW11 and AW11 (any key object, resp. issued keys): translating the random numbers of the encryption leaves what the key reads unchanged, so a replaced policy recovers the session element for at most one shift of the secret; by chance it does (witnesses). AC17 CP-ABE: the element reached differs from the sealed one by a combination of column hashes of which at least one coefficient is non-zero."
  },
  {
   "property": "C50",
   "status": "partial",
   "theorems": [
    "Rabe.Ac17.C50_ac17_hash_inputs_partial",
    "Rabe.Ac17.C50_violated",
    "Rabe.Ac17.C50_violated_universal_key"
   ],
   "note": "Violated: attribute 0j collides with column j; a key for attribute 01 yields a key for every policy (C50_violated_universal_key). Proved: hash inputs determine name and indices, so no other collisions exist."
  },
  {
   "property": "C51",
   "status": "partial",
   "theorems": [
    "Rabe.Lsw.C51_lsw_encrypt_no_panic",
    "Rabe.Lsw.C51_lsw_keygen_panic_iff_partial",
    "Rabe.Lsw.C51_violated"
   ],
   "note": "Violated: keygen aborts on names that start with a non-ASCII character or whose part before '_' is empty (C51_violated). Proved: exact abort condition for keygen; encrypt never aborts."
  },
  {
   "property": "C52",
   "status": "partial",
   "theorems": [
    "Rabe.Ac17.C52_violated_ac17_kp",
    "Rabe.Ac17.C52_violated_ac17_kp_decrypts",
    "Rabe.Ac17.C52_violated_ac17_cp",
    "Rabe.Ac17.C52_violated_ac17_cp_decrypts",
    "Rabe.Bdabe.C52_violated_bdabe",
    "Rabe.Bdabe.C52_violated_bdabe_history",
    "Rabe.Ghw11.C52_violated_ghw11",
    "Rabe.Ghw11.C52_violated_ghw11_decrypts",
    "Rabe.Lsw.C52_violated_lsw",
    "Rabe.Mke08.C52_violated_mke08",
    "Rabe.Mke08.C52_violated_mke08_history",
    "Rabe.Bsw.C52_violated_bsw_readdress",
    "Rabe.Bsw.C52_violated_bsw_readdress_decrypts",
    "Rabe.Ghw11.C52_violated_ghw11_readdress",
    "Rabe.Ghw11.C52_violated_ghw11_readdress_decrypts"
   ],
   "note": "Violated: key or ciphertext components for one attribute can be turned into components for any other with public values; general attack theorems per scheme. AC17: a public transformation moves any ciphertext (KP and CP) to any other attributes or policy; the new ciphertext decrypts with keys for the target. BSW and GHW11: a public program gives any ciphertext any other policy without a key; the result equals what encrypt makes with the same secret (C52_violated_bsw_readdress, C52_violated_ghw11_readdress)."
  },
  {
   "property": "C53",
   "status": "partial",
   "theorems": [
    "Rabe.Bdabe.C53_bdabe_order",
    "Rabe.Bdabe.C53_bdabe_larger_partial",
    "Rabe.Bsw.C53_bsw_order",
    "Rabe.Bsw.C53_bsw_larger_partial",
    "Rabe.Bsw.C53_violated_bsw",
    "Rabe.Ghw11.C53_ghw11_order",
    "Rabe.Ghw11.C53_ghw11_larger_partial",
    "Rabe.Mke08.C53_mke08_order",
    "Rabe.Mke08.C53_mke08_larger_partial",
    "Rabe.Ac17.C53_ac17_cp_order",
    "Rabe.Ac17.C53_ac17_kp_order",
    "Rabe.Ac17.C53_ac17_larger_partial",
    "Rabe.Ac17.C53_violated_ac17",
    "Rabe.Ac17.C53_ac17_kp_larger_partial",
    "Rabe.Aw11.C53_aw11_order",
    "Rabe.Aw11.C53_aw11_larger_partial",
    "Rabe.Lsw.C53_lsw_order",
    "Rabe.Lsw.C53_lsw_larger_partial",
    "Rabe.Yct14.C53_yct14_order",
    "Rabe.Yct14.C53_yct14_larger_partial"
   ],
   "note": "Order: keys (or, for key-policy schemes, ciphertexts) of any origin with distinct attribute names, all eight schemes (C53_*_order; AC17 even with repeated names). Larger attribute lists: proved for issued keys, honest ciphertexts and the policies for which correctness holds (C53_*_larger_partial); violated otherwise (C53_violated_bsw, C53_violated_ac17)."
  },
  {
   "property": "C54",
   "status": "partial",
   "theorems": [
    "Rabe.C54_bytes",
    "Rabe.C54_roundtrip_partial",
    "Rabe.C54_stores",
    "Rabe.C54_violated",
    "Rabe.C54_cbor_roundtrip"
   ],
   "note": "Violated for YCT14 with the borsh feature: every node of a stored public key is lost (C54_violated). Partial: both features, for every object of a type whose serialisation round-trips (Stored: proved for all key and ciphertext types of the other schemes from the laws for scalars and group elements) and every pair of headers used by the console; with the serde feature for all types (C54_cbor_roundtrip). Assumption: inflate undoes deflate."
  },
  {
   "property": "C55",
   "status": "partial",
   "theorems": [
    "Rabe.C55_violated",
    "Rabe.C55_success_partial",
    "Rabe.C55_name_partial",
    "Rabe.C55_violated_witness"
   ],
   "note": "Violated: the output file is opened without write access or creation, so a non-empty plaintext always aborts and nothing is stored (C55_violated, concrete chain C55_violated_witness). Partial: what success implies. Both features."
  },
  {
   "property": "C56",
   "status": "partial",
   "theorems": [
    "Rabe.C56_ac17cp_chain_partial",
    "Rabe.C56_ac17cp_runs",
    "Rabe.C56_violated_encrypt",
    "Rabe.C56_violated_delegate",
    "Rabe.C56_violated_yct14_encrypt",
    "Rabe.C56_violated_yct14_decrypt",
    "Rabe.C56_violated_bsw",
    "Rabe.C56_violated_aw11_ct",
    "Rabe.C56_violated_lsw",
    "Rabe.C56_violated_aw11",
    "Rabe.C56_violated_bdabe",
    "Rabe.C56_violated_mke08_decrypt",
    "Rabe.C56_yct14_cbor_session_partial",
    "Rabe.C56_ac17cp_session_partial",
    "Rabe.C56_yct14_cbor_runs",
    "Rabe.C56_yct14_cbor_witness"
   ],
   "note": "Violated in ten ways, one theorem each; delegate never succeeds, encrypt never succeeds for AC17KP, BDABE, MKE08, and with the borsh feature YCT14, files are looked for under other names, ciphertexts are stored as a Result (both features). Partial: for AC17CP (both features) and YCT14 (serde feature) the chain recovers the content of the file, with any fitting arguments and any other commands in between (C56_ac17cp_session_partial, C56_yct14_cbor_session_partial), with existence of such runs."
  },
  {
   "property": "C57",
   "status": "partial",
   "theorems": [
    "Rabe.C57_bsw_roundtrip_partial",
    "Rabe.C57_ac17_roundtrip_partial",
    "Rabe.C57_lsw_roundtrip_partial",
    "Rabe.C57_aw11_roundtrip_partial",
    "Rabe.C57_bdabe_roundtrip_partial",
    "Rabe.C57_mke08_roundtrip_partial",
    "Rabe.C57_violated",
    "Rabe.C57_yct14_loses_nodes",
    "Rabe.C57_yct14_encrypt_panics",
    "Rabe.C57_yct14_keygen_empty",
    "Rabe.C57_yct14_decrypt_sk",
    "Rabe.C57_yct14_decrypt_ct"
   ],
   "note": "Violated for YCT14: nodes are skipped, with consequences for encrypt, keygen and decrypt. Partial: all key and ciphertext types of the six other schemes, assuming the law for scalars and group elements (external crate rabe_bn)."
  },
  {
   "property": "C58",
   "status": "proved",
   "theorems": [
    "Rabe.C58_human_parse_iff",
    "Rabe.C58_human_err_iff",
    "Rabe.C58_human_unambiguous"
   ],
   "note": "Grammar is the inductive relation Human in Spec/Grammar.lean, independent of the parser; includes unambiguity."
  },
  {
   "property": "C59",
   "status": "partial",
   "theorems": [
    "Rabe.C59_violated",
    "Rabe.C59_json_parse_sound_partial",
    "Rabe.C59_json_parse_complete_partial",
    "Rabe.C59_json_parse_iff_partial",
    "Rabe.C59_json_parse_exact",
    "Rabe.C59_json_err_exact",
    "Rabe.C59_json_unambiguous",
    "Rabe.C59_json_first",
    "Rabe.C59_violated_ambiguous"
   ],
   "note": "Violated: a quoted operator with a comment containing a quote is committed to as an attribute (C59_violated), and the language is ambiguous (C59_violated_ambiguous). Proved: C59_json_parse_exact and C59_json_err_exact describe the parser for all texts by a grammar with one preference (an object that begins with an attribute is an attribute), which makes it unambiguous; soundness for the plain grammar; equivalence with it for all texts without '/*'."
  },
  {
   "property": "C60",
   "status": "proved",
   "theorems": [
    "Rabe.C60_canonical",
    "Rabe.C60_delimited"
   ],
   "note": "Assumes exact encodings of scalars and group elements (external crate rabe_bn). Holds for all key and ciphertext types of all schemes, including YCT14."
  },
  {
   "property": "C61",
   "status": "proved",
   "theorems": [
    "Rabe.C61_frame",
    "Rabe.C61_plaintext",
    "Rabe.C61_session"
   ],
   "note": "All eight commands, all eight schemes, both features; C61_session lifts it to sequences of commands."
  },
  {
   "property": "C62",
   "status": "partial",
   "theorems": [
    "Rabe.C62_success_partial",
    "Rabe.C62_violated",
    "Rabe.C62_violated_witness"
   ],
   "note": "Violated for BDABE req-attr-sk: a refused request reports success and stores nothing (C62_violated, concrete run C62_violated_witness). Partial: all other commands except decrypt (see C55). Both features."
  },
  {
   "property": "C63",
   "status": "partial",
   "theorems": [
    "Rabe.C63_setup_partial",
    "Rabe.C63_authgen_partial",
    "Rabe.C63_keygen_partial",
    "Rabe.C63_encrypt_partial",
    "Rabe.C63_requested",
    "Rabe.C63_reqAttrPk",
    "Rabe.C63_reqAttrSk_partial",
    "Rabe.C63_decrypt",
    "Rabe.C63_violated_same_file",
    "Rabe.C63_violated_result"
   ],
   "note": "Violated: setup with one file name for both keys loses the master key (C63_violated_same_file); encrypt for BSW, LSW and AW11 stores the error of the library and reports success (C63_violated_result); YCT14 keys lose their nodes with the borsh feature (C57_yct14_loses_nodes). Partial: per command and scheme, what was called on what and what is stored; delegate never succeeds (C56_violated_delegate). Both features."
  },
  {
   "property": "C64",
   "status": "partial",
   "theorems": [
    "Rabe.C64_answers",
    "Rabe.C64_never_err",
    "Rabe.C64_first_shares_partial",
    "Rabe.C64_conjunction_partial",
    "Rabe.C64_violated_or",
    "Rabe.C64_violated_selection"
   ],
   "note": "Violated: from all shares of a disjunction a multiple of the secret is returned (C64_violated_or), and from the shares of a selection that is not an initial segment the wrong coefficients are used (C64_violated_selection). Proved: initial segments, conjunctions, and exactly when it answers."
  },
  {
   "property": "C65",
   "status": "partial",
   "theorems": [
    "Rabe.Bsw.C65_bsw_abort_iff",
    "Rabe.Bsw.C65_bsw_no_abort_partial",
    "Rabe.Bsw.C65_violated_bsw",
    "Rabe.Ghw11.C65_ghw11_abort_iff",
    "Rabe.Ghw11.C65_ghw11_out_abort_iff",
    "Rabe.Ghw11.C65_ghw11_no_abort_partial",
    "Rabe.Ghw11.C65_violated_ghw11",
    "Rabe.Aw11.C65_aw11_abort_iff",
    "Rabe.Aw11.C65_aw11_no_abort_partial",
    "Rabe.Aw11.C65_violated_aw11",
    "Rabe.Ac17.C65_ac17_cp_abort_iff",
    "Rabe.Ac17.C65_ac17_kp_abort_iff",
    "Rabe.Ac17.C65_ac17_no_abort_partial",
    "Rabe.Ac17.C65_violated_ac17",
    "Rabe.Lsw.C65_lsw_abort_iff",
    "Rabe.Lsw.C65_lsw_abort_any",
    "Rabe.Lsw.C65_lsw_no_abort_partial",
    "Rabe.Lsw.C65_violated_lsw",
    "Rabe.Yct14.C65_yct14_abort_iff",
    "Rabe.Yct14.C65_yct14_abort_any",
    "Rabe.Yct14.C65_yct14_no_abort_partial",
    "Rabe.Yct14.C65_violated_yct14",
    "Rabe.Bdabe.C65_bdabe_abort_iff",
    "Rabe.Bdabe.C65_bdabe_no_abort_partial",
    "Rabe.Bdabe.C65_violated_bdabe",
    "Rabe.Mke08.C65_mke08_abort_iff",
    "Rabe.Mke08.C65_mke08_no_abort_partial",
    "Rabe.Mke08.C65_violated_mke08"
   ],
   "note": "Violated in every scheme: a payload shorter than 12 bytes, a missing or short component, a gate with one child or a policy text such as 5 makes decryption panic (C65_violated_*). Proved: the exact condition for a panic for every stored text (gates of any width) and every key and ciphertext (C65_*_abort_iff; for LSW and YCT14 with an issued key, and with any key object in C65_lsw_abort_any and C65_yct14_abort_any; the last step of GHW11 in C65_ghw11_out_abort_iff), and that well-shaped ciphertexts of any origin never panic (C65_*_no_abort_partial)."
  },
  {
   "property": "C66",
   "status": "proved",
   "theorems": [
    "Rabe.C66_ac17_roundtrip",
    "Rabe.C66_aw11_roundtrip",
    "Rabe.C66_bdabe_roundtrip",
    "Rabe.C66_bsw_roundtrip",
    "Rabe.C66_ghw11_roundtrip",
    "Rabe.C66_lsw_roundtrip",
    "Rabe.C66_mke08_roundtrip",
    "Rabe.C66_yct14_roundtrip",
    "Rabe.C66_total",
    "Rabe.C66_injective"
   ],
   "note": "Both forms of the encoding, all types. The encoders of rabe_bn for Fr, G1, G2, Gt are parameters with a round-trip law and at most 64 levels of nesting. Indefinite lengths and floating-point numbers in the input are not modelled."
  },
  {
   "property": "C67",
   "status": "proved",
   "theorems": [
    "Rabe.C67_display_text",
    "Rabe.C67_display_injective",
    "Rabe.C67_display_legal",
    "Rabe.C67_display_ambiguous",
    "Rabe.C67_from_policy"
   ],
   "note": "For every policy text. C67_display_ambiguous: programs built with other labels (a quote in a name) can print alike."
  },
  {
   "property": "C68",
   "status": "partial",
   "theorems": [
    "Rabe.Yct14.C68_violated_yct14",
    "Rabe.Yct14.C68_violated_yct14_decrypts",
    "Rabe.Bsw.C68_bsw_mixed_partial",
    "Rabe.Bsw.C68_bsw_pair_partial",
    "Rabe.Mke08.C68_mke08_mixed_partial",
    "Rabe.Bdabe.C68_bdabe_mixed_partial"
   ],
   "note": "Violated for YCT14: two keys for A and B determine the key for B, which opens messages for B. Proved (_partial) for BSW, MKE08, BDABE: a key mixed from several users computes the message shifted by an explicit combination of the differences of the users' exponents, and for BSW with two users and a random secret the result takes every value when the randomness varies. Not proved: that no other computation with the keys succeeds (false in several schemes even for one key, C29, C52)."
  },
  {
   "property": "C69",
   "status": "partial",
   "theorems": [
    "Rabe.Bsw.C69_bsw_encrypt",
    "Rabe.Ghw11.C69_ghw11_encrypt",
    "Rabe.Yct14.C69_yct14_keygen",
    "Rabe.Lsw.C69_lsw_keygen_partial",
    "Rabe.Ac17.C69_ac17_cp_encrypt_partial",
    "Rabe.Ac17.C69_ac17_kp_keygen_partial",
    "Rabe.Ac17.C69_violated_ac17",
    "Rabe.Aw11.C69_aw11_encrypt_partial",
    "Rabe.Bdabe.C69_bdabe_encrypt_partial",
    "Rabe.Mke08.C69_mke08_encrypt_partial",
    "Rabe.C69_violated_dnf"
   ],
   "note": "Holds for BSW, GHW11, YCT14. Violated for LSW (names with an empty part), AC17 and AW11 (gates that are not binary panic), BDABE and MKE08 (nested gates panic); the _partial theorems give the exact set of accepted and of aborting policies for each."
  },
  {
   "property": "C70",
   "status": "partial",
   "theorems": [
    "Rabe.Bsw.C70_setup",
    "Rabe.Ghw11.C70_setup",
    "Rabe.Aw11.C70_setup",
    "Rabe.Lsw.C70_setup",
    "Rabe.Yct14.C70_setup",
    "Rabe.Ac17.C70_setup",
    "Rabe.Bdabe.C70_setup",
    "Rabe.Mke08.C70_setup",
    "Rabe.Bsw.C70_keygen",
    "Rabe.Bsw.C70_delegate",
    "Rabe.Ghw11.C70_keygen",
    "Rabe.Ghw11.C70_tkgen",
    "Rabe.Aw11.C70_authgen",
    "Rabe.Lsw.C70_keygen",
    "Rabe.Yct14.C70_keygen",
    "Rabe.Ac17.C70_cp_keygen",
    "Rabe.Ac17.C70_kp_keygen",
    "Rabe.Bdabe.C70_authgen",
    "Rabe.Bdabe.C70_keygen",
    "Rabe.Mke08.C70_authgen",
    "Rabe.Mke08.C70_keygen",
    "Rabe.Bsw.C70_encrypt",
    "Rabe.Ghw11.C70_encrypt",
    "Rabe.Aw11.C70_encrypt",
    "Rabe.Lsw.C70_encrypt",
    "Rabe.Yct14.C70_encrypt",
    "Rabe.Ac17.C70_cp_encrypt",
    "Rabe.Ac17.C70_kp_encrypt",
    "Rabe.Bdabe.C70_encrypt",
    "Rabe.Mke08.C70_encrypt",
    "Rabe.Bsw.C70_setup_used",
    "Rabe.Bsw.C70_keygen_used",
    "Rabe.Bsw.C70_delegate_used",
    "Rabe.Bsw.C70_encrypt_used",
    "Rabe.Ghw11.C70_setup_used",
    "Rabe.Ghw11.C70_keygen_used",
    "Rabe.Ghw11.C70_tkgen_used",
    "Rabe.Ghw11.C70_encrypt_used",
    "Rabe.Aw11.C70_setup_used",
    "Rabe.Aw11.C70_authgen_used",
    "Rabe.Aw11.C70_encrypt_used",
    "Rabe.Ac17.C70_kp_keygen_used",
    "Rabe.Bdabe.C70_setup_used",
    "Rabe.Bdabe.C70_authgen_used",
    "Rabe.Bdabe.C70_keygen_used",
    "Rabe.Bdabe.C70_encrypt_used",
    "Rabe.Mke08.C70_setup_used",
    "Rabe.Mke08.C70_authgen_used",
    "Rabe.Mke08.C70_keygen_used",
    "Rabe.Mke08.C70_encrypt_used",
    "Rabe.Lsw.C70_setup_used",
    "Rabe.Lsw.C70_keygen_used",
    "Rabe.Lsw.C70_encrypt_used_partial",
    "Rabe.Lsw.C70_violated_encrypt",
    "Rabe.Yct14.C70_setup_used",
    "Rabe.Yct14.C70_keygen_used",
    "Rabe.Yct14.C70_encrypt_used",
    "Rabe.Ac17.C70_setup_used",
    "Rabe.Ac17.C70_cp_keygen_used",
    "Rabe.Ac17.C70_cp_encrypt_used",
    "Rabe.Ac17.C70_kp_encrypt_used"
   ],
   "note": "Proved for all schemes except LSW encryption. C70_setup/keygen/encrypt…: exact number of values drawn, and the run depends on no other value. C70_…_used: the output determines the drawn values (for BDABE and MKE08 encryption the session element drawn as a pairing of two points is determined, not the points). AC17 KP keys: if the two scalars a of the master key differ. Violated: the last scalar drawn by LSW encryption is never used, so the ciphertext does not depend on it (C70_violated_encrypt); the _partial theorem covers the other values."
  },
  {
   "property": "C71",
   "status": "partial",
   "theorems": [
    "Rabe.Bsw.C71_keygen",
    "Rabe.Bsw.C71_delegate",
    "Rabe.Bsw.C71_encrypt",
    "Rabe.Ghw11.C71_keygen",
    "Rabe.Ghw11.C71_tkgen",
    "Rabe.Ghw11.C71_encrypt",
    "Rabe.Aw11.C71_authgen",
    "Rabe.Aw11.C71_add",
    "Rabe.Aw11.C71_keygen",
    "Rabe.Aw11.C71_encrypt_partial",
    "Rabe.Aw11.C71_violated_encrypt",
    "Rabe.Lsw.C71_keygen",
    "Rabe.Lsw.C71_encrypt",
    "Rabe.Yct14.C71_setup",
    "Rabe.Yct14.C71_encrypt",
    "Rabe.Yct14.C71_keygen_partial",
    "Rabe.Yct14.C71_violated_keygen",
    "Rabe.Ac17.C71_cp_keygen",
    "Rabe.Ac17.C71_kp_keygen",
    "Rabe.Ac17.C71_cp_encrypt",
    "Rabe.Ac17.C71_kp_encrypt",
    "Rabe.Bdabe.C71_keygen",
    "Rabe.Bdabe.C71_encrypt",
    "Rabe.Mke08.C71_keygen",
    "Rabe.Mke08.C71_encrypt"
   ],
   "note": "Proved for BSW, GHW11, LSW, AC17, BDABE and MKE08 and for the authorities and keys of AW11. AC17 sorts by name: the names are a sorted permutation of the leaf names. LSW and YCT14 cut names at the first underscore, which the theorems state. Violated: AW11 encryption silently drops a leaf without public key, and YCT14 key generation drops a leaf whose attribute the master key does not know; the _partial theorems say exactly which leaves remain."
  },
  {
   "property": "C72",
   "status": "proved",
   "theorems": [
    "Rabe.Bsw.C72_delegated_like_issued",
    "Rabe.Bsw.C72_unlinkable",
    "Rabe.Bsw.C72_chain_unlinkable"
   ],
   "note": "Exact statement: a fixed shift of the random scalars turns delegation into key generation (and into delegation from any other key)."
  },
  {
   "property": "C73",
   "status": "proved",
   "theorems": [
    "Rabe.Bsw.C73_encrypt",
    "Rabe.Ghw11.C73_encrypt",
    "Rabe.Aw11.C73_encrypt",
    "Rabe.Lsw.C73_encrypt",
    "Rabe.Yct14.C73_encrypt",
    "Rabe.Ac17.C73_cp_encrypt",
    "Rabe.Ac17.C73_kp_encrypt",
    "Rabe.Bdabe.C73_encrypt",
    "Rabe.Mke08.C73_encrypt"
   ],
   "note": "All schemes. YCT14 has no separate session element: the key is derived from the next random multiple of g, and another plaintext changes the payload only. BDABE, MKE08: the session element is a pairing of two random points (MKE08: plus a random multiple of it)."
  },
  {
   "property": "C74",
   "status": "partial",
   "theorems": [
    "Rabe.C74_json_linear",
    "Rabe.C74_json_exact",
    "Rabe.C74_human_exact",
    "Rabe.C74_human_upper_partial",
    "Rabe.C74_violated_nested",
    "Rabe.C74_violated_alternating",
    "Rabe.C74_violated",
    "Rabe.C74_violated_unclosed"
   ],
   "note": "Violated for the human language: the alternatives and, or, term read the first operand again; n pairs of brackets around one attribute (2n+3 characters) take (3^(n+1)-1)/2 entries, alternating AND and OR without superfluous brackets takes 2^(n+2)-3, n opening brackets and nothing else (refused) take (6^(n+1)-1)/5 (C74_violated_unclosed), and no polynomial bounds the number for accepted texts (C74_violated). Proved: JSON is linear for every text, and for accepted texts the number is exactly the number of leaves and gates of the policy (C74_json_exact); the exact number for every accepted human text; for every human text at most (4 length + 7)^(opening brackets)."
  },
  {
   "property": "C75",
   "status": "proved",
   "theorems": [
    "Rabe.Bsw.C75_bsw_outcome",
    "Rabe.Bsw.C75_bsw_excess",
    "Rabe.Bsw.C75_bsw_correct",
    "Rabe.Bsw.C75_bsw_underscore",
    "Rabe.Ghw11.C75_ghw11_outcome",
    "Rabe.Ghw11.C75_ghw11_excess",
    "Rabe.Ghw11.C75_ghw11_correct",
    "Rabe.Ac17.C75_ac17_cp_outcome",
    "Rabe.Ac17.C75_ac17_cp_correct",
    "Rabe.Ac17.C75_ac17_cp_leaf",
    "Rabe.Ac17.C75_ac17_kp_outcome",
    "Rabe.Ac17.C75_ac17_kp_correct",
    "Rabe.Aw11.C75_aw11_outcome",
    "Rabe.Aw11.C75_aw11_correct",
    "Rabe.Bdabe.C75_bdabe_outcome",
    "Rabe.Bdabe.C75_bdabe_correct",
    "Rabe.Mke08.C75_mke08_outcome",
    "Rabe.Mke08.C75_mke08_correct",
    "Rabe.Lsw.C75_lsw_outcome",
    "Rabe.Lsw.C75_lsw_correct",
    "Rabe.Yct14.C75_yct14_outcome",
    "Rabe.Yct14.C75_yct14_correct"
   ],
   "note": "No hypothesis on the policy: the outcome theorems give the result of decryption for every accepted text in terms of the scalars on the tape, for all schemes. The excess and leaf theorems show where the deviation comes from; the correctness theorems are stronger than C25, C30, C32, C34, C36, C38, C42, C44 because gates that pruning does not visit may be narrow, names that are not selected may repeat and public keys may be missing. Of two BSW keys that differ in one exponent of a name with underscore at most one recovers the session element."
  },
  {
   "property": "C76",
   "status": "partial",
   "theorems": [
    "Rabe.Bsw.C76_keygen_partial",
    "Rabe.Bsw.C76_violated_comma",
    "Rabe.Bsw.C76_encrypt_partial",
    "Rabe.Bsw.C76_encrypt_refused",
    "Rabe.Bsw.C76_violated_length",
    "Rabe.Bsw.C76_violated_size",
    "Rabe.Bsw.C76_violated_underflow",
    "Rabe.Bsw.C76_violated_decrypt",
    "Rabe.Bsw.C76_violated_never",
    "Rabe.Bsw.C76_decrypt_refused_partial",
    "Rabe.Bsw.C76_delegate"
   ],
   "note": "Violated: rabe_bsw_decrypt takes the payload length minus 16 as the plaintext length, which is 12 too many, so every successful decryption reads behind the plaintext (C76_violated_decrypt) and none returns (C76_violated_never); an empty plaintext panics; names with commas are split; ciphertext texts of 4 GiB overflow the buffer. Proved: encryption, key generation and refusals otherwise. The file is not part of the crate; None is read as Err. Assumption: AES-GCM adds 16 bytes (Tag16)."
  },
  {
   "property": "C77",
   "status": "proved",
   "theorems": [
    "Rabe.Bsw.C77_outsider",
    "Rabe.Ghw11.C77_outsider",
    "Rabe.Lsw.C77_outsider",
    "Rabe.Ac17.C77_cp_outsider",
    "Rabe.Ac17.C77_kp_outsider",
    "Rabe.Yct14.C77_outsider",
    "Rabe.Aw11.C77_outsider",
    "Rabe.Bdabe.C77_outsider",
    "Rabe.Mke08.C77_outsider"
   ],
   "note": "A computation is a list of exponents for all pairings of seen elements and all seen elements of Gt, chosen before the varied values (linear generic-group model; hashes to exponents are fixed numbers). The bound counts over a master secret, an encryption random number and the session element; BDABE and MKE08 assume that the exponents of a conjunction do not sum to zero; LSW assumes alpha2 is not zero. Holders of keys are not covered, see C29, C50, C52, C68."
  },
  {
   "property": "C78",
   "status": "partial",
   "theorems": [
    "Rabe.C78_leaf_objects_partial",
    "Rabe.C78_violated_traverse",
    "Rabe.C78_violated_dnf",
    "Rabe.C78_traverse_partial",
    "Rabe.C78_dnf_partial"
   ],
   "note": "Violated by traverse_policy (a leaf object is satisfied by everybody with an attribute) and by the normal form conversion (a leaf object below an OR is refused); holds for the other helpers, and one direction holds for these two."
  },
  {
   "property": "C79",
   "status": "partial",
   "theorems": [
    "Rabe.C79_violated",
    "Rabe.C79_line_partial",
    "Rabe.C79_field"
   ],
   "note": "Violated: errors of the human language are reported as JSON errors. The line and the field errors are determined. The location itself, computed by pest, is a parameter."
  },
  {
   "property": "C80",
   "status": "partial",
   "theorems": [
    "Rabe.Yct14.C80_violated",
    "Rabe.Yct14.C80_one_key_partial"
   ],
   "note": "Violated when an attribute occurs twice: a key for (A and B) or (A and C) opens ciphertexts for B, C. Proved for policies without repeated attributes and without underscore in names, for keys without a zero component, in the linear generic-group model with exponents chosen from the key."
  },
  {
   "property": "C81",
   "status": "proved",
   "theorems": [
    "Rabe.Ghw11.C81_service"
   ],
   "note": "In the linear generic-group model: fixed computations, exponents independent of the random numbers. Bounds the session element, not partial information about the plaintext."
  },
  {
   "property": "C82",
   "status": "partial",
   "theorems": [
    "Rabe.Console.C82_exit_partial",
    "Rabe.Console.C82_default_language",
    "Rabe.Console.C82_no_scheme",
    "Rabe.Console.C82_stored_partial",
    "Rabe.Console.C82_violated"
   ],
   "note": "Violated: without a subcommand the program does nothing and ends with status 0. Proved for every command line with a subcommand; status 0 also implies stored outputs where C62 holds."
  },
  {
   "property": "C83",
   "status": "proved",
   "theorems": [
    "Rabe.Bsw.C83_sound",
    "Rabe.Aw11.C83_sound",
    "Rabe.Lsw.C83_sound",
    "Rabe.Yct14.C83_sound",
    "Rabe.Ac17.C83_cp_sound",
    "Rabe.Ac17.C83_kp_sound",
    "Rabe.Bdabe.C83_sound",
    "Rabe.Mke08.C83_sound",
    "Rabe.Ghw11.C83_sound",
    "Rabe.Ghw11.C83_alternative_needed"
   ],
   "note": "The alternative (another derived key accepts the payload) is a property of AES-GCM, which is not key-committing; C83_alternative_needed shows that it cannot be dropped for an arbitrary cipher."
  },
  {
   "property": "C84",
   "status": "partial",
   "theorems": [
    "Rabe.Aw11.C84_coalition_lookup",
    "Rabe.Aw11.C84_coalition_partial",
    "Rabe.Aw11.C84_violated"
   ],
   "note": "Violated for names with an underscore (encryption takes the public key of the part before it): a holder of A opens the policy \"A_B\" after relabelling. C84_coalition_lookup holds for all names, with the policy read through that lookup; C84_coalition_partial is the claim for names without underscore."
  },
  {
   "property": "C85",
   "status": "partial",
   "theorems": [
    "Rabe.Aw11.C85_hidden",
    "Rabe.Aw11.C85_two_users_lookup",
    "Rabe.Aw11.C85_two_users_partial",
    "Rabe.Aw11.C85_violated",
    "Rabe.Aw11.C85_exposed",
    "Rabe.Aw11.C85_exact"
   ],
   "note": "Violated for names with an underscore as in C84. C85_two_users_lookup holds for all names, with the policy read through the lookup of the code; C85_two_users_partial is the claim for names without underscore. C85_hidden, C85_exposed and C85_exact give the exact condition for any number of users. Two cannot be replaced by three: the three users of C41_violated_siblings open a ciphertext none of them opens alone."
  },
  {
   "property": "C86",
   "status": "proved",
   "theorems": [
    "Rabe.C86_conjunctions",
    "Rabe.Mke08.C86_authorities",
    "Rabe.Mke08.C86_authorities_exact",
    "Rabe.Bdabe.C86_authorities",
    "Rabe.Bdabe.C86_authorities_exact"
   ],
   "note": "C86_conjunctions says which vectors belong to a policy; Mke08.C86_authorities and Bdabe.C86_authorities bound every computation, the theorems ending in _exact show that the condition cannot be weakened. The claim is about keys of the authorities, not about attributes: a member with some attribute of an authority can compute the key of every other attribute of it (C29), and a conjunction in a later disjunct is divided by the code (C19)."
  },
  {
   "property": "C87",
   "status": "partial",
   "theorems": [
    "Rabe.C87_violated_keygen",
    "Rabe.C87_violated_encrypt",
    "Rabe.C87_encrypt_partial",
    "Rabe.C87_decrypt",
    "Rabe.C87_requests_partial",
    "Rabe.C87_violated_witness"
   ],
   "note": "Violated: keygen aborts (status 101) in all six schemes that can refuse (C87_violated_keygen); encrypt of BSW, LSW and AW11 ends with status 0 and stores the error as the ciphertext (C87_violated_encrypt); BDABE ignores refused requests for secret attribute keys (C62_violated). Proved for encrypt of AC17CP and YCT14, for decrypt in all schemes, for delegation, authority set-up and the other requests."
  },
  {
   "property": "C88",
   "status": "proved",
   "theorems": [
    "Rabe.C88_reads",
    "Rabe.C88_aborts",
    "Rabe.C88_errors",
    "Rabe.C88_frame"
   ],
   "note": "inflate is an uninterpreted inverse of deflate; the text and the hexadecimal digits are modelled in full."
  },
  {
   "property": "C89",
   "status": "proved",
   "theorems": [
    "Rabe.Yct14.C89_keys",
    "Rabe.Yct14.C89_opens",
    "Rabe.Yct14.C89_authorized",
    "Rabe.Yct14.C89_disjoint"
   ],
   "note": "Yct14.C89_keys is the bound, Yct14.C89_opens the converse, C89_authorized and C89_disjoint relate the condition to the policies. Outside C89_disjoint the condition can hold although no policy is satisfied: two keys for the same AND (C68), one key with a repeated attribute (C80)."
  },
  {
   "property": "C90",
   "status": "proved",
   "theorems": [
    "Rabe.Bsw.C90_keygen",
    "Rabe.Bsw.C90_encrypt",
    "Rabe.Ac17.C90_cp_keygen",
    "Rabe.Ac17.C90_kp_keygen",
    "Rabe.Ac17.C90_cp_encrypt",
    "Rabe.Ac17.C90_kp_encrypt",
    "Rabe.Lsw.C90_keygen",
    "Rabe.Lsw.C90_encrypt",
    "Rabe.Yct14.C90_encrypt",
    "Rabe.Yct14.C90_keygen",
    "Rabe.Aw11.C90_keygen",
    "Rabe.Aw11.C90_encrypt",
    "Rabe.Bdabe.C90_encrypt",
    "Rabe.Mke08.C90_encrypt",
    "Rabe.Bsw.C90_hides"
   ],
   "note": "One theorem per scheme and object; the encodings of the elements of rabe_bn are assumed to have fixed lengths, AES-GCM to add 16 bytes. In YCT14 the field node of an attribute is marked borsh(skip), so only the names are counted. GHW11 has no borsh instances. Bsw.C90_hides is the consequence for plaintexts of equal length."
  },
  {
   "property": "C91",
   "status": "partial",
   "theorems": [
    "Rabe.C91_json_upper_partial",
    "Rabe.C91_human_upper_partial",
    "Rabe.C91_json_exact",
    "Rabe.C91_human_exact",
    "Rabe.C91_human_height",
    "Rabe.C91_violated_human",
    "Rabe.C91_violated_json",
    "Rabe.C91_violated",
    "Rabe.C91_violated_unclosed"
   ],
   "note": "Violated: there is no limit (C91_violated); n brackets make the parser nest n + 1 deep, also if the text is refused (C91_violated_unclosed). Proved for all texts: the nesting is at most the number of opening brackets plus one; for accepted JSON texts it is exactly the height of the tree, for accepted human texts exactly the nesting of brackets. The conversion of the parse tree nests as deep as the tree is high."
  },
  {
   "property": "C92",
   "status": "partial",
   "theorems": [
    "Rabe.Bdabe.C92_violated_bdabe",
    "Rabe.Bdabe.C92_violated_bdabe_case",
    "Rabe.Bdabe.C92_dishonest_partial",
    "Rabe.Mke08.C92_violated_mke08",
    "Rabe.Mke08.C92_violated_mke08_case",
    "Rabe.Mke08.C92_dishonest_partial",
    "Rabe.Aw11.C92_dishonest_lookup",
    "Rabe.Aw11.C92_dishonest_partial",
    "Rabe.Aw11.C92_any_key",
    "Rabe.Aw11.C92_rogue_lookup",
    "Rabe.Aw11.C92_rogue_partial"
   ],
   "note": "Violated in BDABE: every authority has a share of the whole master secret and opens every ciphertext (C92_violated_bdabe, the forged key is accepted by decrypt). Violated in MKE08: an authority that publishes a key computed from the keys of the others makes every user open the conjunction (C92_violated_mke08). Violated in AW11 only through the underscore, as C84. Proved: AW11 for names without underscore and in general after the lookup of names (C92_dishonest_lookup, C92_dishonest_partial; C92_any_key shows that no published key is excluded), also when the dishonest authorities compute their keys from those of the honest ones (C92_rogue_lookup, C92_rogue_partial); MKE08 for keys made by authgen (Mke08.C92_dishonest_partial); BDABE if only the numbers for the attributes are known (Bdabe.C92_dishonest_partial)."
  },
  {
   "property": "C93",
   "status": "partial",
   "theorems": [
    "Rabe.Lsw.C93_lsw_stored_policy_partial",
    "Rabe.Lsw.C93_violated_lsw",
    "Rabe.Lsw.C93_violated_lsw_underscore",
    "Rabe.Yct14.C93_yct14_stored_policy_partial",
    "Rabe.Yct14.C93_violated_yct14",
    "Rabe.Yct14.C93_violated_yct14_underscore",
    "Rabe.Ac17.C93_ac17_kp_stored_policy_partial",
    "Rabe.Ac17.C93_violated_ac17"
   ],
   "note": "Violated by chance in all three schemes (random numbers of key generation zero) and in LSW and YCT14 for names with an underscore, under which the components are listed shortened. Partial: for every replacement text, what decryption works with in place of the secret is unchanged by translations of the random numbers that shift the secret (LSW, YCT14), or differs from the session element by a combination with a non-zero coefficient, which vanishes for at most one value of one random number (AC17); hence it is right for one value out of all at most."
  },
  {
   "property": "C94",
   "status": "partial",
   "theorems": [
    "Rabe.Bsw.C94_live",
    "Rabe.Bsw.C94_persist",
    "Rabe.Bsw.C94_count",
    "Rabe.Bsw.C94_destroy",
    "Rabe.Bsw.C94_violated_unusable",
    "Rabe.Bsw.C94_wrong_pointer",
    "Rabe.Bsw.C94_use_after_destroy",
    "Rabe.Bsw.C94_defined_partial",
    "Rabe.Bsw.C94_decrypt_observed",
    "Rabe.Bsw.C94_encrypt_observed",
    "Rabe.Bsw.C94_session_partial"
   ],
   "note": "Violated: rabe_bsw_delegate and rabe_bsw_decrypt_get_size take pointers to objects that no function of the interface hands out, so every call is undefined (C94_violated_unusable); decryption with satisfying names reads behind the plaintext or panics at the end of every program (C94_session_partial, second part, and C76_violated_decrypt). Proved for all programs and allocators: which objects exist (C94_live), no object changes (C94_persist), the number of objects (C94_count), destroying and wrong or released pointers (C94_destroy, C94_wrong_pointer, C94_use_after_destroy), results depend only on the objects passed (C94_decrypt_observed, C94_encrypt_observed). Partial: memory safety of the other functions (C94_defined_partial); answer -1 for names that do not satisfy the policy."
  },
  {
   "property": "C95",
   "status": "partial",
   "theorems": [
    "Rabe.C95_layout_parse",
    "Rabe.C95_layout_meaning",
    "Rabe.C95_layout_msp",
    "Rabe.C95_layout_dnf",
    "Rabe.Ac17.C95_ac17_encrypt",
    "Rabe.Ac17.C95_ac17_keygen",
    "Rabe.Ac17.C95_ac17_cp_decrypt",
    "Rabe.Ac17.C95_ac17_kp_decrypt",
    "Rabe.Bdabe.C95_bdabe_encrypt",
    "Rabe.Bdabe.C95_bdabe_decrypt",
    "Rabe.Mke08.C95_mke08_encrypt",
    "Rabe.Mke08.C95_mke08_decrypt",
    "Rabe.C95_layout_regular_partial",
    "Rabe.C95_violated_bsw"
   ],
   "note": "Violated by the schemes that label leaves by column (witness: BSW, C95_violated_bsw: the same tokens on one line decrypt, on three lines they do not). Proved for both languages: acceptance and tree (C95_layout_parse), meaning (C95_layout_meaning), span program and normal form, and all of AC17 (both variants), BDABE and MKE08. Partial: for the other schemes a layout on one line gives a regular policy again, to which the correctness theorems and C98 apply (C95_layout_regular_partial). Texts in quotes that contain /* are left out, numbers too."
  },
  {
   "property": "C96",
   "status": "partial",
   "theorems": [
    "Rabe.C96_words_partial",
    "Rabe.C96_dash",
    "Rabe.C96_legal",
    "Rabe.C96_program",
    "Rabe.C96_program_reach",
    "Rabe.C96_scheme",
    "Rabe.C96_reach_partial",
    "Rabe.C96_violated_names",
    "Rabe.C96_violated_authorities",
    "Rabe.C96_violated_attributes",
    "Rabe.C96_violated_session",
    "Rabe.C96_violated_readme",
    "Rabe.C96_readme_witness"
   ],
   "note": "Violated. Proved: the assignments that words can produce are exactly the Sayable ones (C96_words_partial: no gaps, nothing after an argument with several values, one value otherwise); whatever the words, the program changes nothing or runs a command with such an assignment (C96_program), and every such assignment is run by some words (C96_program_reach); every assignment that the declarations allow has the same effect as one that can be said, except names and policies for authgen and file names of setup that look like options (C96_reach_partial). Violations, for all words: authgen never gets a name or a policy, so BDABE and MKE08 authorities are never created (C96_violated_names, C96_violated_authorities); keys of the ciphertext-policy schemes have at most one attribute (C96_violated_attributes), so a ciphertext whose policy no single attribute satisfies is never opened (C96_violated_session); the last call of the README always ends with status 1 (C96_violated_readme, first three calls succeed in C96_readme_witness). clap itself is transcribed from its documentation (release build)."
  },
  {
   "property": "C97",
   "status": "partial",
   "theorems": [
    "Rabe.C97_fields",
    "Rabe.C97_value",
    "Rabe.C97_bytes",
    "Rabe.C97_ac17",
    "Rabe.C97_aw11",
    "Rabe.C97_bdabe",
    "Rabe.C97_bsw",
    "Rabe.C97_ghw11",
    "Rabe.C97_lsw",
    "Rabe.C97_mke08",
    "Rabe.C97_yct14",
    "Rabe.C97_values",
    "Rabe.C97_language",
    "Rabe.C97_language_written",
    "Rabe.C97_node",
    "Rabe.C97_node_written",
    "Rabe.C97_named_partial",
    "Rabe.C97_violated_kinds",
    "Rabe.C97_violated_console"
   ],
   "note": "Violated for the kinds. Proved: exactly which maps give which field values (C97_fields); for every structure type of every scheme the result depends only on the values of the fields, also from the bare sequence; repeated, missing and malformed entries are refused (C97_ac17 ... C97_yct14, Arrangeable); a written value is read back from every arrangement (C97_value) and from its bytes (C97_bytes); the accepted forms of the two enumerations (C97_language, C97_node). Kinds: with names an object is accepted as another kind only if the fields of that kind are among its own (C97_named_partial); with numbers, as the console writes them, public keys of MKE08 are accepted as master keys, BDABE public attribute keys as secret ones, AC17 keys with attributes as keys with a policy (C97_violated_kinds), and keygen of the console runs with success on the public key alone (C97_violated_console). Assumption: a missing field of a type of rabe_bn is an error (Required). C97_values says exactly which values are accepted for bytes, texts, lists, tuples and optional fields."
  },
  {
   "property": "C98",
   "status": "partial",
   "theorems": [
    "Rabe.C98_msp",
    "Rabe.C98_dnf",
    "Rabe.C98_serialised",
    "Rabe.Ac17.C98_cp_encrypt",
    "Rabe.Ac17.C98_kp_keygen",
    "Rabe.Ac17.C98_cp_decrypt",
    "Rabe.Ac17.C98_kp_decrypt",
    "Rabe.Bdabe.C98_encrypt",
    "Rabe.Bdabe.C98_decrypt",
    "Rabe.Mke08.C98_encrypt",
    "Rabe.Mke08.C98_decrypt",
    "Rabe.Lsw.C98_keygen",
    "Rabe.Lsw.C98_decrypt_partial",
    "Rabe.Yct14.C98_keygen",
    "Rabe.Yct14.C98_decrypt_partial",
    "Rabe.Bsw.C98_encrypt",
    "Rabe.Bsw.C98_decrypt_partial",
    "Rabe.Ghw11.C98_encrypt",
    "Rabe.Ghw11.C98_transform_partial",
    "Rabe.Aw11.C98_encrypt",
    "Rabe.Aw11.C98_decrypt_partial",
    "Rabe.Bsw.C98_violated",
    "Rabe.Ghw11.C98_violated",
    "Rabe.Aw11.C98_violated"
   ],
   "note": "Violated in its last sentence by BSW, GHW11 and AW11, whose ciphertexts contain labels with the columns of the stored text: after the stored text of a ciphertext for one attribute is replaced by what the library writes for it, BSW refuses and GHW11 and AW11 abort (Bsw.C98_violated, Ghw11.C98_violated, Aw11.C98_violated). Proved: span program, normal form and the library's translation (C98_msp, C98_dnf, C98_serialised); AC17 (both variants), BDABE and MKE08 entirely; keys of LSW and YCT14, ciphertexts of BSW, GHW11 and AW11. Partial: decryption of LSW, YCT14, BSW, GHW11 and AW11 is alike when both texts are short, have no gate with one child and no two leaves of one attribute in one column (false otherwise, C25, C42; for AW11 not even in different case)."
  },
  {
   "property": "C99",
   "status": "partial",
   "theorems": [
    "Rabe.Bsw.C99_example_partial",
    "Rabe.Bsw.C99_violated",
    "Rabe.Ac17.C99_example_cp_partial",
    "Rabe.Ac17.C99_example_kp_partial",
    "Rabe.Ac17.C99_violated_cp",
    "Rabe.Ac17.C99_violated_kp",
    "Rabe.Lsw.C99_example",
    "Rabe.Yct14.C99_example_partial",
    "Rabe.Yct14.C99_violated",
    "Rabe.Aw11.C99_example",
    "Rabe.Mke08.C99_example",
    "Rabe.Bdabe.C99_example",
    "Rabe.Bsw.C99_returns",
    "Rabe.Ac17.C99_returns",
    "Rabe.Lsw.C99_returns",
    "Rabe.Yct14.C99_returns",
    "Rabe.Aw11.C99_returns",
    "Rabe.Mke08.C99_returns",
    "Rabe.Bdabe.C99_returns"
   ],
   "note": "Violated by BSW, AC17 (both examples) and YCT14: the example aborts if a random number that is inverted is zero (Bsw.C99_violated, Ac17.C99_violated_cp, Ac17.C99_violated_kp, Yct14.C99_violated). Partial: for these the exact condition on the random numbers is proved, in all other cases the example ends normally. Proved without condition for LSW, AW11, MKE08 and BDABE. Conditions on the plaintext as in the statement, for AC17, AW11, BDABE, BSW and MKE08 also the empty one."
  },
  {
   "property": "C100",
   "status": "partial",
   "theorems": [
    "Rabe.Bdabe.C100_bdabe_lookup",
    "Rabe.Bdabe.C100_bdabe_partial",
    "Rabe.Bdabe.C100_bdabe_violated",
    "Rabe.Mke08.C100_mke08_lookup",
    "Rabe.Mke08.C100_mke08_partial",
    "Rabe.Mke08.C100_mke08_violated",
    "Rabe.Aw11.C100_aw11_lookup",
    "Rabe.Aw11.C100_aw11_partial",
    "Rabe.Aw11.C100_aw11_twice",
    "Rabe.Aw11.C100_aw11_violated",
    "Rabe.C100_refused"
   ],
   "note": "Violated by BDABE and MKE08: a public key given twice appears twice in the ciphertext (Bdabe.C100_bdabe_violated, Mke08.C100_mke08_violated); and by AW11: for the policy \"A_B\" the public key of the unmentioned attribute A adds a component (Aw11.C100_aw11_violated). Partial: for keys of different attributes (AW11: names in the policy without underscore) the order and further keys change nothing, result and tape being equal; AW11 also for keys given again (C100_aw11_twice). The lookup theorems say exactly what of the list matters, without these conditions."
  },
  {
   "property": "C101",
   "status": "partial",
   "theorems": [
    "Rabe.Bsw.C101_keygen",
    "Rabe.Bsw.C101_delegate",
    "Rabe.Ghw11.C101_keygen",
    "Rabe.Ac17.C101_keygen",
    "Rabe.Ac17.C101_violated_ac17",
    "Rabe.Ac17.C101_encrypt_partial",
    "Rabe.Lsw.C101_encrypt",
    "Rabe.Yct14.C101_encrypt_partial",
    "Rabe.Yct14.C101_violated",
    "Rabe.Aw11.C101_authgen",
    "Rabe.Aw11.C101_keygen_partial",
    "Rabe.Aw11.C101_violated"
   ],
   "note": "Violated by AC17 KP-ABE (encryption for the empty list succeeds and no key opens the result, Ac17.C101_violated_ac17), YCT14 (an attribute that was not given to set-up aborts, Yct14.C101_violated) and AW11 (an authority for the attribute a aborts when asked for a, because names are stored in upper case but looked up as given, Aw11.C101_violated). Proved as stated for BSW key generation and delegation, GHW11, AC17 CP-ABE (the outcome is given exactly; key generation also aborts for every list that is not empty if one of two random numbers of the set-up is zero), LSW and AW11 authority set-up. Partial: for the three violating functions the outcome is given exactly for every list."
  },
  {
   "property": "C102",
   "status": "partial",
   "theorems": [
    "Rabe.C102_setup",
    "Rabe.Bsw.C102_setup_partial",
    "Rabe.Ghw11.C102_tkgen_partial",
    "Rabe.C102_names",
    "Rabe.Ac17.C102_kpKeygen_partial",
    "Rabe.Yct14.C102_keygen_partial",
    "Rabe.Yct14.C102_keygen_numbers_partial",
    "Rabe.C102_violated",
    "Rabe.C102_violated_keygen"
   ],
   "note": "Violated with negligible probability: for zero random numbers BSW set-up and GHW11 transformation keys abort (C102_violated), and AC17 and YCT14 set-up return keys with which key generation aborts (C102_violated_keygen). Partial: the random numbers for which each of them aborts are given exactly. Proved as stated for set-up of all schemes other than BSW and for authorities and users of BDABE and MKE08. AC17 CP-ABE key generation is Ac17.C101_keygen; LSW key generation and AW11 authorities are C34_lsw_defined and C38_aw11_defined."
  },
  {
   "property": "C103",
   "status": "proved",
   "theorems": [
    "Rabe.Ghw11.C103_blinding",
    "Rabe.Ghw11.C103_retrieve",
    "Rabe.Ghw11.C103_users"
   ],
   "note": "C103_blinding for all objects; C103_retrieve and C103_users for regular policies (one line, gates with at least two children) and names without underscore in policy and key, as in C42. C103_retrieve gives the element that any retrieval key leads to."
  },
  {
   "property": "C104",
   "status": "partial",
   "theorems": [
    "Rabe.Bsw.C104_test_partial",
    "Rabe.Bsw.C104_delegate_partial",
    "Rabe.Bsw.C104_all_partial",
    "Rabe.Bsw.C104_violated",
    "Rabe.Ghw11.C104_test_partial",
    "Rabe.Ghw11.C104_and2_partial",
    "Rabe.Ghw11.C104_all_partial",
    "Rabe.Ghw11.C104_violated"
   ],
   "note": "Violated with negligible probability: if a random number that is inverted is zero, the test aborts (Bsw.C104_violated, Ghw11.C104_violated). Partial: for every test the random numbers for which it aborts are given exactly, with all others it ends normally (C104_all_partial, Bsw.C104_delegate_partial, Ghw11.C104_and2_partial); C104_test_partial says so for the form common to the tests with any policy on one line and any two lists of attributes as expected by the test. The conversion of the plaintext to a string for output at the end of and2 is left out."
  },
  {
   "property": "C105",
   "status": "partial",
   "theorems": [
    "Rabe.Lsw.C105_test",
    "Rabe.Lsw.C105_refused",
    "Rabe.Lsw.C105_all",
    "Rabe.Yct14.C105_test_partial",
    "Rabe.Yct14.C105_violated",
    "Rabe.Ac17.C105_kp_partial",
    "Rabe.Ac17.C105_cp_partial",
    "Rabe.Ac17.C105_kpOrAnd_partial",
    "Rabe.Ac17.C105_kpNot_partial",
    "Rabe.Ac17.C105_all_partial",
    "Rabe.Ac17.C105_violated"
   ],
   "note": "Proved as stated for LSW (Lsw.C105_all, with the general forms Lsw.C105_test and Lsw.C105_refused). Violated with negligible probability for AC17 and YCT14: if a random number that is inverted is zero, the test aborts (Ac17.C105_violated, Yct14.C105_violated). Partial: for these the random numbers for which each test aborts are given exactly, with all others it ends normally (Ac17.C105_all_partial, Yct14.C105_test_partial). AC17 also with the empty plaintext."
  },
  {
   "property": "C106",
   "status": "proved",
   "theorems": [
    "Rabe.Aw11.C106_and",
    "Rabe.Aw11.C106_two",
    "Rabe.Aw11.C106_all"
   ],
   "note": "C106_all for the four tests, C106_two for the form common to or, or_and and not with other policies and attributes. Policies for C106_two are regular (on one line) and have two operands at every and, as encryption requires."
  },
  {
   "property": "C107",
   "status": "proved",
   "theorems": [
    "Rabe.Mke08.C107_mke08_two",
    "Rabe.Mke08.C107_mke08_two_aborts",
    "Rabe.Mke08.C107_mke08_all",
    "Rabe.Bdabe.C107_bdabe_two",
    "Rabe.Bdabe.C107_bdabe_or_and",
    "Rabe.Bdabe.C107_bdabe_all"
   ],
   "note": "C107_mke08_all and C107_bdabe_all for the seven tests; C107_mke08_two and C107_bdabe_two for the form common to the tests with two attributes, with other attributes and policies; there decryption succeeds if the attributes satisfy the policy and encryption keeps a term of it, and is refused if they do not satisfy it (C107_mke08_two_aborts, C107_bdabe_two)."
  },
  {
   "property": "C108",
   "status": "proved",
   "theorems": [
    "Rabe.C108_and_gate",
    "Rabe.C108_or_gate",
    "Rabe.C108_gen_shares",
    "Rabe.C108_gen_shares_test",
    "Rabe.C108_sharing",
    "Rabe.C108_aes",
    "Rabe.C108_dnf"
   ],
   "note": "C108_sharing, C108_gen_shares_test, C108_dnf and C108_aes for the tests; C108_and_gate, C108_or_gate and C108_gen_shares for other inputs (for AND the text is shorter than 2^64 characters). The other unit tests of the utilities have no free inputs; the kernel evaluates them in Verif/Check."
  }
 ]
}
