# Formal model of IMUtility

`/repo` is a C library of small utilities: queue, priority queue, map, scheduler, four sorts, ciphers, 45 CRC functions, Base64,
JSON text building and lookup, (de)serialisation, bit manipulation.  `lean/` contains a Lean 4 model of that code and proofs of
the properties listed in `properties.jsonl`.  `MANIFEST.json` maps properties to theorems.

## Trusted base

* Lean's kernel (4.33.0).  No `native_decide`, no `bv_decide`, no axioms of our own, no `sorry`.
* Axioms: every theorem depends on at most `propext`, `Classical.choice` and `Quot.sound` (`#print axioms` on all theorems of the
  manifest; most use all three, about twenty only `propext` and `Quot.sound`, a few only `propext` or none).
* The hand translation from C to Lean in `lean/Verif/Model/*`.  Each definition cites file and lines and names its simplifications.
* The C semantics in `lean/Verif/C/Mem.lean` and the functions of `<string.h>` in `lean/Verif/C/Str.lean`.
* For C96 - C98, C132 - C134, C136, C137, C141 - C150 the observer of `lean/Verif/C/Leak.lean` (C150: of `lean/Verif/Model/LeakScheduler.lean`) (and `LeakMem.lean`, `LeakStr.lean`: `memcpy` and `strcpy` go byte by byte, `memcmp`, `strcmp` and `strncmp` stop at the first difference): it sees addresses, table indices and decisions of the C text, no
  values; compilation and variable-time instructions are not modelled, scalar locals are registers.
* The specifications in `lean/Verif/Spec/*`, which say what the theorems mean.  In particular
  * RFC 8439 (ChaCha20), RFC 4648 (Base64) and RFC 8259 (JSON) are transcribed by hand;
  * the CRC catalogue of `Spec/CrcCatalogue.lean` was written down from knowledge of the public catalogue, without access to it.
    It carries the published check values, and `crc_checks` proves that the parameters give them.  A wrong parameter would have to
    agree with a wrong check value to go unnoticed.
  * the documented polynomials of C20 are transcribed from the comments in `/repo`.

### The C semantics used

* Memory is a set of objects ("blocks"); a pointer is a block number and an integer byte offset, possibly negative.  Byte objects
  are lists of 8-bit vectors.  `uint32_t` arrays (only the priority array of the priority queue) are blocks of words in a separate
  heap.  The sizes of objects are arbitrary: no theorem bounds them.
* Every load and store is checked.  Outside the object the outcome is `ub oobRead` or `ub oobWrite`.  Other undefined behaviour that
  the code can reach is a distinct outcome too: shift counts, signed overflow, overlapping `memcpy`, null dereference, division by
  zero, a missing NUL.  Forming an out-of-range pointer without dereferencing it is not flagged.
* `ub fuel` is not undefined behaviour of C.  It says that a `while` loop did not end within the rounds granted to it.  The
  theorems show that it does not occur for a sufficient number of rounds (the sorts) or at all (Base64, JSON), except where
  stated (`Json_findByKey` with buffers of 2^32 - 1 bytes or more is outside the theorems).
* `int` has 32 bits, `size_t` 64 (LP64); base64.c and json.c are modelled a second time with a `size_t` of 32 bits (Model/Ilp32.lean, C99, C100) and a third time with `size_t` and `int` of 16 bits (Model/Size16.lean, C122); conversions to narrower signed types wrap (implementation-defined; gcc and clang).
  The signedness of plain `char` is a parameter where it matters (`Utils_stringToUint32`, `VernamCipher_decrypt`).
* Unsigned arithmetic is modulo 2^n (`BitVec`).  `int32_t` arithmetic is integer arithmetic with an explicit overflow outcome.
* The structures of the API (`Queue_t`, `PriorityQueue_t`, `Map_t`) are Lean structures outside the byte memory: the caller
  does not alias the control block with the data.  Scalar out-parameters are "old value in, new value out".
* Comparators are pure functions of the bytes of the two elements (C94 lifts this: they may have effects elsewhere); the reads are bounds-checked.  The comparator is not assumed to be
  an order unless a theorem says so (`C43` holds for every comparator).  The concrete comparators of the test-suite
  (`Tests/helper/sort_functions.c`) are modelled as well (C87).
* Scheduler tasks are arbitrary transformers of the whole world, task table included; they terminate.
* Local arrays (`key_stream` in ChaCha20) are objects that exist during the call; their number is a parameter, required to differ
  from those of the arguments.
* Const tables are Lean lists.  Reading behind one is undefined.
* Compiler, libc implementation and timing are not modelled.  Interrupts are modelled for the queue (C92, C93), as interleavings
  of single accesses in program order (sequential consistency); to C itself such accesses are data races unless the objects are
  volatile or atomic, which `Queue_t` does not declare; for the priority queue (C109) and the map (C111) as one whole call at a
  named point of another; for the scheduler (C115) as arbitrary handlers before every access to the table.

## What is modelled

Every function of `/repo/Src`: `utils.c`, `bit_manipulation.c`, `queue.c`, `priority_queue.c`, `map.c`, `scheduler.c`, `sort/*.c`,
`crypto/*.c`, `base64.c`, `json.c`, `crc/crc{8,16,32}_base.c` and the 45 files of `crc/crc{8,16,32}_variants`.  The 45 variant
functions are instances of one definition (`Crc.Variant.call`): their bodies differ only in the constants and in which output step
depends on `final_crc`.  The table literals and constants were extracted by a script and are part of the sources
(`Model/CrcVariants.lean`).  `Inc/typedefs.h` (type names, `NULL_PTR`) is only reflected in the types.

Not modelled: the unit tests, except the comparators; the build system; null pointers where the code does not test for them (such a
call would be undefined at once), except where the code dereferences one behind an incomplete test (`Queue_init`, `Map_init`).

## Layout

* `Verif/C/*`      C semantics (memory, monad, string functions) and their lemmas
* `Verif/Model/*`  the code, one file per C file
* `Verif/Spec/*`   specifications that do not use the model, and the client programs of histories (`*Calls`, `Pipeline`)
* `Verif/Proofs/*` helper lemmas
* `Verif/Props/*`  the property theorems, each with a non-vacuity example
* `seeded/LOG.jsonl`  wrong programs tried against the theorems: definition, edit, claim broken, theorems that failed

## Properties

One row per property of `properties.jsonl`; all theorems are in namespace `IMU.Props`.  "How" says what is modelled and how the
proof goes.

| id | theorems | how |
|----|----------|-----|
| C01 | `C01_stringToUint32_exact` | Loop invariant: accumulator = value of the prefix scaled by powers of ten. The specification is a fold of decimal digits. |
| C02 | `C02_quickPow10_exact` | All 256 exponents, old value arbitrary. |
| C03 | `C03_round_trip_value`, `C03_round_trips` | Symbolic execution of the byte accesses, base-256 digit lemma. |
| C04 | `C04_deserialise_layout`, `C04_serialise_layout` | As C03; byte i of the buffer is digit i (or w-1-i) of the value in base 256. |
| C05 | `C05_deserialise_frame`, `C05_serialise_frame` | Frame: only the named bytes change, the reading functions change nothing. |
| C06 | `C06_blobBE_copies`, `C06_blobLE_limit`, `C06_blobLE_reverses`, `C06_blob_round_trip` | Loop invariants on list slices. LE with sizes of 2^31 and above copies nothing or overflows (`C06_blobLE_limit`). |
| C07 | `C07_swap_exchanges`, `C07_swap_involutive` | Loop invariant on both slices; the elements may be the same but not overlap partly. |
| C08 | `C08_char_classes` | All 256 values. |
| C09 | `C09_reflect_any_width`, `C09_reflect_involutive`, `C09_reflect_mirrors` | Bit-level extensionality, loop invariant; `C09_reflect_any_width` covers n_bits > 32. |
| C10 | `C10_out_of_range`, `C10_single_bit`, `C10_toggle_involutive` | Bit-level extensionality. |
| C100 | `C100_end_wraps`, `C100_same`, `C100_wraps` | Model/Ilp32.lean repeats json.c with 32-bit size_t; equality with the 64-bit model, using that no write changes the size of an object; the wrap-arounds are theorems on all texts that reach 2^32. |
| C101 | `C101_alphabets`, `C101_outside`, `C101_same` | Spec/Base64More.lean; the decoder's table maps a character like its standard form (all 256 kernel-checked); the digits of a text determine and are determined by the bytes, by splitting into whole groups and a rest. |
| C102 | `C102_limit_necessary` | The witness history fills the queue up to the first element whose offset wraps and dequeues once; what any defined run delivers is computed and compared with the ideal queue. |
| C103 | `C103_bubble_limit`, `C103_heap_limit`, `C103_insertion_limit`, `C103_int_min`, `C103_nothing_to_do`, `C103_selection_limit` | From a run without undefined behaviour it follows that every index times the element size was computed, also the last one; outcomes for small counts by evaluation. |
| C104 | `C104_pq_own_full`, `C104_pq_own_reject`, `C104_pq_own_room`, `C104_pq_value`, `C104_queue_own`, `C104_queue_target` | enqueueItem reads the priority through its pointer where the code does; the representation lemmas of C21 and C26 with the source of the copy in the queue's own buffer but apart from its target. |
| C105 | `C105_all`, `C105_detects`, `C105_functions`, `C105_misses`, `C105_tables`, `C105_unique` | Codewords of weight k as sums of k powers of x modulo the divisor. 8 and 16 bits: enumeration by the kernel. 32 bits: weights 3 and 5 by a sorting network that the kernel runs on all powers (sums of two powers) at once, one number per bit of the registers; weight 4 by logarithms to the base x (a certificate in the module, verified by exponentiation of all of them at once); 0xA833982B by the Frobenius map, its order being a Fermat prime. Frames that go undetected by explicit codewords. |
| C106 | `C106_insertion_in_itself`, `C106_nested`, `C106_overwritten`, `C106_remains` | Spec/SortNested.lean names the four sorts and nests them. The positive part instantiates C94 (invariant: the inner array is set up and a permutation of what it was); the negative part follows insertion sort with a comparison function that overwrites the static buffer. |
| C107 | `C107_any_message`, `C107_both_ends`, `C107_dead_line`, `C107_leading`, `C107_numbers`, `C107_table`, `C107_trailing` | Feeding zeros multiplies the register by x^8; the period of a register value is determined by exponentiation at its divisors (kernel computation, the prime factors of C75). |
| C108 | `C108_blobBE_overlap`, `C108_blobLE_in_place`, `C108_blobLE_overlap`, `C108_swap_overlap` | The loop invariant gives, for every byte, the place in the old memory it comes from; the places are computed in closed form. |
| C109 | `C109_after_the_check`, `C109_dequeue_met_by_dequeue`, `C109_dequeue_met_by_enqueue_harmless`, `C109_dequeue_met_by_enqueue_loses`, `C109_enqueue_met_by_dequeue`, `C109_enqueue_met_by_enqueue`, `C109_quiet`, `C109_undefined` | `Model/PriorityQueueInterrupt.lean` runs a handler at a named point of the call; the contents of every place of the two arrays are followed through the statements, for every reachable state. |
| C11 | `C11_rotl32_defined`, `C11_rotl32_inverse`, `C11_rotl32_rotates` | Defined exactly for 1..31; bit i goes to i+n mod 32. |
| C110 | `C110_ends`, `C110_fills`, `C110_full`, `C110_history`, `C110_restart`, `C110_run` | `Spec/SchedulerSpawn.lean` states which functions the tasks are (`adding`, `restarting`); the loop of `Scheduler_run` is followed with an invariant on the slots done, waiting and free. |
| C111 | `C111_insert_meets_lookup`, `C111_insert_meets_update`, `C111_last_place`, `C111_lookup_meets_new_key`, `C111_lookup_meets_update`, `C111_quiet`, `C111_two_new_keys`, `C111_update_meets_new_key` | `Model/MapInterrupt.lean` runs a handler at a named point of the call, `memcpy` stopped with any set of bytes copied; the contents of every place of the two arrays are followed through the statements, for every reachable state. |
| C112 | `C112_add_own_key`, `C112_add_own_value`, `C112_encode_defined`, `C112_encode_exact`, `C112_encode_near`, `C112_find`, `C112_find_in_place`, `C112_find_none` | The models re-read a byte after each store where the code does, so overlapping arguments need no new model. Json_findByKey: the third loop is followed with the memory after w rounds given in closed form (the byte copied in round w is `moved`, the periodic continuation of C108). Json_addData: strcpy of the end of a string behind its own NUL is an overlap. Base64_encode: `enc_any` (defined, frame) for all positions, `enc_near` (correct) and, for the converse, runs on zero data in which some character differs from `A` (`enc_hit`, `enc_behind`). Theorems in Props/TextOverlap.lean. |
| C113 | `C113_bubble`, `C113_insertion`, `C113_nearly_sorted`, `C113_reversed`, `C113_sorted` | `Spec/Disorder.lean` defines a(k), their sum and their maximum; the runs with the logged comparison function are followed along the lists of the pure run (`Sim`): one pass of bubble sort takes one off every a(k) > 0 (`bpass_lag`), the inner loop of insertion sort makes one call per place moved (`shift_count`). |
| C114 | `C114_full`, `C114_lookup`, `C114_lookup_fails`, `C114_new_key`, `C114_own_key`, `C114_own_value`, `C114_update`, `C114_value_in_free_key_place`, `C114_value_over_free_key_place` | `memcpy` of the model is undefined for overlapping ranges; each copy of the two functions is followed once with the ranges apart and once overlapping, for every reachable state (`Rep`); later histories by the simulation of C31, restarted from the entries held. Theorems in Props/MapOwn.lean. |
| C115 | `C115_add`, `C115_lost`, `C115_quiet`, `C115_run_meets_addition`, `C115_run_meets_additions`, `C115_run_meets_init` | `Model/SchedulerInterrupt.lean`: an arbitrary transformer of the world runs before every access to the table. Occupied slots never change under additions (`Keeps`) and what they hold does not matter to an addition (`addAll_swap`); the loops are followed by induction over the slots. Theorems in Props/SchedulerInterrupt.lean. |
| C116 | `C116_dequeue_free`, `C116_dequeue_front`, `C116_dequeue_over_element`, `C116_enqueue`, `C116_pq_dequeue`, `C116_pq_free_place`, `C116_pq_over_newer`, `C116_pq_over_older`, `C116_rear` | The copy is followed with ranges apart and overlapping; `overlay` (Spec/Overlay.lean) says byte by byte what is left of an element after something was written over part of it, and the representation of the queue is shown for the overlaid elements, from which removal and shifting go on as in C21 and C26. Theorems in Props/Deliver.lean. |
| C117 | `C117_chacha_behind`, `C117_chacha_behind_loses`, `C117_chacha_exact`, `C117_chacha_key_in_result`, `C117_chacha_one_block`, `C117_chacha_right_bytes`, `C117_vernam_decrypt`, `C117_vernam_encrypt`, `C117_vernam_front_decrypt`, `C117_vernam_front_encrypt`, `C117_vernam_front_round_trip`, `C117_vernam_self_decrypt`, `C117_vernam_self_encrypt`, `C117_vernam_self_round_trip` | `midByte` (Spec/Midway.lean) is a byte of memory when part of the result is written, given by the memories before and after the call; one loop invariant over `Block` and the inner loop (Proofs/ChaChaOverlap.lean) and one over the Vernam loop (Proofs/VernamOverlap.lean) determine every result byte with no assumption on overlap; the consequences are read off (Props/CipherOverlap.lean). In both cases the key and the message must lie inside their objects; the Vernam consequences assume letters. |
| C118 | `C118_caesar_32`, `C118_caesar_decrypt`, `C118_caesar_encrypt`, `C118_caesar_round_trip_iff`, `C118_caesar_targets`, `C118_crc`, `C118_utils` | `Model/IntWidth.lean` repeats the functions whose expressions are computed in `int` or `unsigned int` with operands of `w` bits, conversions modulo 2^w; each is shown equal to the 32-bit model by comparing bits, `CaesarCipher_decrypt` is evaluated with 2^w modulo 26. Theorems in Props/IntWidth.lean; with w = 32 the Caesar functions are the ordinary ones by definition. |
| C119 | `C119_bubble`, `C119_heap`, `C119_insertion`, `C119_instances`, `C119_same`, `C119_selection`, `C119_selection_most` | `Model/SortMoves.lean` is the model of C94 with an action before each exchange or copy; with `tick v` it counts in a log of its own. Simulations show that counting changes nothing else (`C119_same`); comparisons minus moves are followed through insertion and heap sort (`Diff`, Proofs/SortMoves.lean); a pass of bubble sort and an exchange of selection sort are compared with the number of pairs in the wrong order. Insertion sort under the conditions of C45, heap sort under those of C44. |
| C12 | `C12_tables` | `decide +kernel` on each complete table against the modelled generator. |
| C120 | `C120_eight`, `C120_exchange`, `C120_neighbours`, `C120_noticed`, `C120_same_change`, `C120_table` | The difference of the two checksums is the register after the mask, `8 t` zero bits, and the mask again, so the change goes unnoticed exactly if `8 t` steps take the register after the mask to itself (`same_change_iff`). Periods are certified by powers of x modulo the divisor and the prime factors of the period, for all 255 masks by linearity (`select_units`, Proofs/CrcExchange.lean); the table is Spec/CrcExchange.lean, the theorems in Props/CrcExchange.lean. |
| C121 | `C121_circle`, `C121_circle_exists`, `C121_endless`, `C121_first_key`, `C121_limit_right`, `C121_limit_wrong`, `C121_missed`, `C121_right` | The three loops of `Json_findByKey` are followed with `index` as a number modulo 2^32 (Proofs/JsonHuge.lean); `around` (Spec/JsonHuge.lean) is the text read in a circle. The endless case is stated for every bound on the number of rounds. Theorems in Props/JsonHuge.lean. |
| C122 | `C122_decode`, `C122_encode`, `C122_end_wraps`, `C122_round_trip`, `C122_same`, `C122_wraps` | Model/Size16.lean repeats base64.c and json.c with 16-bit size_t and int, 32-bit where a uint32_t takes part; equality with the 64-bit model, operation by operation, and the wrap-arounds as theorems on all texts that reach 2^16. Theorems in Props/Size16.lean. |
| C123 | `C123_drain`, `C123_fill_and_drain`, `C123_no_wait`, `C123_overload`, `C123_starvation`, `C123_wait` | `Spec/PriorityQueueOrder.lean` says what order of delivery, the greatest priorities and overtaking mean; on the ideal queue (C26) by induction over runs: what is kept and what was dropped are a permutation of what was offered, nothing dropped exceeds anything kept; the numbers of entries before an entry and above it change by at most what one operation allows. Theorems in Props/PriorityQueueOrder.lean. |
| C124 | `C124_damage`, `C124_decode_pieces`, `C124_decrypt`, `C124_encode_local`, `C124_encode_pieces`, `C124_local` | Proofs/Base64Pieces.lean: how `Spec.Base64.encode` and `decode` (RFC 4648) act on concatenations, and on which characters or bytes one item of the result depends, by recursion over the groups; C58 and C62 carry this over to the two functions and C47 to the decrypted message. Theorems in Props/Base64Pieces.lean. |
| C125 | `C125_all`, `C125_bubble`, `C125_heap`, `C125_insertion`, `C125_keys`, `C125_selection` | Spec/SortTwins.lean says when two arrays compare alike and when they are moved in the same way; Proofs/SortTwins.lean runs each sort on two memories at once, with an array of pairs as the invariant: one memory holds the first, the other the second components, and the pairs are a permutation of the original pairs. Theorems in Props/SortTwins.lean. |
| C126 | `C126_first_any`, `C126_once`, `C126_stable`, `C126_unstable` | Spec/SortKeys.lean defines the order by several keys and the sequence of passes; by induction over the passes from C38 to C42 (sorted, ties kept): a stable pass over an array sorted by the minor keys sorts it by the major key followed by those; counterexamples for the unstable sorts. Theorems in Props/SortKeys.lean. |
| C127 | `C127_fifo`, `C127_queue`, `C127_stack` | Spec/PriorityQueueUses.lean defines the stack; by induction over runs of the ideal priority queue (C26): with falling priorities each of its steps is a step of the FIFO of C21, with rising ones a step of the stack. Theorems in Props/PriorityQueueUses.lean. |
| C128 | `C128_change`, `C128_fix`, `C128_fix_value` | from C47 (the cipher is a bytewise exclusive or with a stream that does not depend on the message), C17 (affine checksums), C73 (residue) and C82 (exactly one choice of w bits gives a remainder). Theorems in Props/CrcCipher.lean. |
| C129 | `C129_map`, `C129_map_undo`, `C129_pq`, `C129_pq_dequeue`, `C129_pq_dequeues`, `C129_pq_undo`, `C129_queue`, `C129_queue_overrun`, `C129_queue_reread`, `C129_queue_undo` | Spec/Rollback.lean says what is written over the ring (overwrite). An accepted element is written to the place behind rear, whatever was removed before, so by induction over histories a structure saved earlier sees exactly these writes; for the priority queue the shifting loop is followed place by place, for the map that no call moves a key. Theorems in Props/Rollback.lean. |
| C13 | `C13_generator`, `C13_generator_short`, `C13_loop` | Generic-width shift register; the table step is eight bit steps by GF(2)-linearity; induction on the message. |
| C130 | `C130_any_order`, `C130_keys`, `C130_lookup`, `C130_same` | Spec/MapOrder.lean defines the first different keys and what is kept, without reference to the map. By induction over histories the log of C31 is the list of offered pairs with keys among the first n; no call moves a key (C129), which gives the order of the entries; the answers of the ideal map depend only on the latest values. Theorems in Props/MapOrder.lean. |
| C131 | `C131_exchanged`, `C131_noticed`, `C131_wide`, `C131_wrong_character` | Spec/Base64Slips.lean holds the two tables of exceptions. Each decoded byte is a function of the 6-bit values, linear under exclusive or; so the checksums agree exactly if the remainder of the bytes of the changed values is zero, which depends only on the place in the group and on the difference; zero bytes around do not matter for odd divisors. The remainders of all 63 differences at 4 places are sums of 6 remainders, which the kernel computes for every divisor and bit order. A value cut off by the end of the data changes one byte, a burst. Theorems in Props/Base64Slips.lean. |
| C132 | `C132_dequeue`, `C132_enqueue`, `C132_priorities`, `C132_queue`, `C132_same_code` | Model/LeakContainers.lean is the code of the queues with an observer (C/Leak.lean, C/LeakMem.lean: memcpy byte by byte; members of the structures at fixed addresses not shown); erasing the observer gives the models used elsewhere. Two runs are followed side by side (Alike): both fail in the same way or show the same and end in related states; the priorities are related by a map that keeps the order. The searches show the list of replacements of the best priority so far, which are the records of the list. Theorems in Props/LeakContainers.lean. |
| C133 | `C133_attack`, `C133_attack_reachable`, `C133_insert`, `C133_lookup`, `C133_reveals`, `C133_same_code` | Observed map functions; memcmp reads both strings up to the first difference (C/LeakMem.lean, a property of the library function that is assumed). What the search shows is decoded entry by entry: the number of reads before the next decision, and the decision, give the number of leading bytes that agree. Theorems in Props/LeakContainers.lean.; Props/MapGuess.lean gives the attack as a function (`recover`) of the answers to the guesses and shows it right on every reachable map with an entry |
| C134 | `C134_decrypt`, `C134_direction`, `C134_encrypt`, `C134_same_code` | Observed Caesar functions; each round shows a code of the kind of the character, and the codes are prefix-free. Arithmetic (% 26) is taken to be independent of its operands in time. Theorems in Props/LeakContainers.lean. |
| C135 | `C135_any_order`, `C135_exact`, `C135_interleaving`, `C135_overflow`, `C135_same` | Spec/PriorityQueueLines.lean defines equality line by line (per priority). Equal lines are kept by every step of the ideal priority queue (C26) with equal answers. Conversely dequeueing shows the elements in their order, and filling the queue with the greatest priority and then offering priority p shows how many entries are below p, which determines the priorities. Any order: from C123 (what is kept is the greatest) since different priorities determine the items. Theorems in Props/PriorityQueueLines.lean. |
| C136 | `C136_dequeue`, `C136_enqueue`, `C136_insert`, `C136_lookup`, `C136_map_worst`, `C136_peek`, `C136_pq_dequeue`, `C136_pq_enqueue`, `C136_pq_worst` | Spec/Cost.lean gives the numbers; the steps are the length of what the observer of C132/C133 sees (C/Leak.lean, C/LeakMem.lean: memcpy reads and writes each byte once, memcmp stops at the first difference - assumptions on the library; a value read several times in one statement counts once; members of structures are not counted). A calculus of fixed costs (Takes) for sequence, decision and loop; the index found by the search of the priority queue comes from the proof of C26, and reachable states give the existence of the run. Theorems in Props/Cost.lean. |
| C137 | `C137_base64`, `C137_caesar`, `C137_chacha`, `C137_crc`, `C137_vernam`, `C137_vernam_refused` | The same calculus over the observed versions of C96-C98 and C134; Base64 by induction on the groups left. Theorems in Props/Cost.lean. |
| C138 | `C138_defined`, `C138_moved`, `C138_order`, `C138_packed`, `C138_rewrite`, `C138_sealed`, `C138_update`, `C138_write` | lists of serialiser and deserialiser calls of Model/Utils at arbitrary offsets of one object (Spec/Records names sizes and byte orders); a memory is determined by the values of the fields and the unchanged rest, hence the order theorem; C138_sealed composes C04, C16, C72 and C73 for a sender and a receiver that may have different memories |
| C139 | `C139_answers`, `C139_blind`, `C139_fifo`, `C139_steps`, `C139_stuck` | Spec/QueueChain writes the caller's code (three ways of passing an element on) over the modelled functions and runs histories on n structures in one memory; the invariant is the representation relation of C21 for every queue, the conserved quantities are the concatenated contents and the sum of the ways left |
| C14 | `C14_functions`, `C14_injective`, `C14_remainder` | `Polynomial (ZMod 2)`: the register is the remainder modulo the divisor; `C14_functions` states it for the 45 calls. |
| C140 | `C140_additions`, `C140_blocked`, `C140_calls`, `C140_final`, `C140_open`, `C140_stale`, `C140_stale_call`, `C140_stale_witness`, `C140_text` | from the declarative form of the lookup (`lookup_iff`) on lists: the first occurrence of the key is the same in every text with that beginning; the continuation in (3) completes the longest end of the text that is a beginning of the key; then the calls by C68 and C64; C140_stale_witness runs both builds and the lookup |
| C141 | `C141_bound`, `C141_found`, `C141_linear`, `C141_quadratic`, `C141_same_code`, `C141_steps`, `C141_worst` | Spec/JsonCost.lean gives the numbers on lists; Model/LeakJson.lean is Json_findByKey with its reads, writes and decisions shown (C/LeakStr.lean: strncmp stops at the first difference or NUL - an assumption on the library), proved to be the model of C68 when nothing is shown (C141_same_code); the steps by induction along the loops, with the indices known from the proofs of C68 |
| C142 | `C142_lookups`, `C142_refused`, `C142_refused_calls`, `C142_same_code`, `C142_shown`, `C142_steps`, `C142_tells` | Spec/LeakBase64.lean writes down what a call shows as a list made from the text alone; Model/LeakBase64.lean is Base64_decode with reads, writes, table indices and decisions shown, equal to the model of C62 when nothing is shown (C142_same_code); equality of the two lists by taking the run apart (the text in front of the place of writing stays what it was); the text is recovered from the indices and decisions |
| C143 | `C143_add`, `C143_additions`, `C143_bound`, `C143_build`, `C143_calls`, `C143_end`, `C143_quadratic`, `C143_same_code`, `C143_shortest` | Spec/JsonBuildCost.lean gives the numbers on lists; Model/LeakJson.lean is json.c with its reads, writes and decisions shown (C/LeakStr.lean: strcpy and strcmp byte by byte - an assumption on the library), proved to be the model of C64 and C65 when nothing is shown (C143_same_code); the steps along the proof of C64; the sum over the members by induction on the list |
| C144 | `C144_all`, `C144_guess`, `C144_same_code`, `C144_shown`, `C144_value` | Spec/LeakJson.lean says what can be told from a lookup; the observed model is that of C141; Proofs/LeakJson.lean gives the exact list shown, Proofs/LeakJsonTold.lean shows that two such lists are equal exactly if the same can be told; the text is recovered through keys that begin like it |
| C145 | `C145_add`, `C145_build`, `C145_same_code`, `C145_tells` | Spec/LeakJsonBuild.lean makes the list shown from lengths alone; the observed model is that of C143; that the calls show this list follows along the proof of C64 (Proofs/LeakJsonBuild.lean); the lengths are recovered from the blocks of the addresses read first |
| C146 | `C146_accepted`, `C146_most`, `C146_same_code`, `C146_shown`, `C146_steps` | Spec/LeakNumber.lean says what can be told of a text; Model/LeakUtils.lean is the observed code (every use of a character is a read); Proofs/LeakUtils.lean and Proofs/LeakNumber.lean give the exact list shown and show that two such lists are equal exactly if the same can be told; values come from C01 |
| C147 | `C147_bubble`, `C147_bubble_order`, `C147_heap`, `C147_heap_order`, `C147_insertion`, `C147_insertion_order`, `C147_same_code`, `C147_selection`, `C147_selection_order` | Model/LeakSort.lean is the observed code; Proofs/LeakSort.lean has a calculus of two runs side by side that either show the same and keep the pairs of elements in the same order or can be told apart, the latter only if some answers differ; Proofs/LeakSortLoops.lean and Proofs/LeakInsertion.lean apply it to the four sorts; Spec/SortTwins.lean (of C125) and Spec/LeakSort.lean say what comparing alike, moving in the same way and having no ties mean; the order follows with C38 - C41 |
| C148 | `C148_bubble`, `C148_heap`, `C148_insertion`, `C148_reached`, `C148_selection` | The observed code of C147; Proofs/SortCost.lean bounds the length of what is shown along the code (`Costs`), bubble sort by the number of elements still to be looked at, Heapify by the number of levels below its index (together fewer than there are elements: `levels_le`); Proofs/SortCostReached.lean counts exactly for comparison functions that always give the same answer. Not shown: that the bound of heap sort is reached |
| C149 | `C149_blob`, `C149_deserialize`, `C149_reflect`, `C149_same_code`, `C149_serialize`, `C149_swap` | Model/LeakBytes.lean is the observed code (the exchange: Model/LeakSort.lean, the reflection: Model/Leak.lean); Spec/LeakBytes.lean says what is shown, explicitly; composed along the code, the loops by induction |
| C15 | `C15_one_call`, `C15_pieces` | Induction over the list of pieces. Functions without `final_crc` are excluded by hypothesis. |
| C150 | `C150_add`, `C150_init`, `C150_run`, `C150_run_any`, `C150_same_code` | Model/LeakScheduler.lean is the observed code (the task functions' own accesses are not shown); Spec/LeakScheduler.lean says what an entry shows; the traces are computed by induction on the number of entries and shown injective in what they show. C150_run is about task functions that leave the table alone, C150_run_any about those that change its entries but not their number |
| C16 | `C16_burst`, `C16_functions`, `C16_single_bit` | Injectivity of the step (constant term 1), any message around the burst. |
| C17 | `C17_affine`, `C17_difference`, `C17_initial` | Linearity of the register in message and initial value. |
| C18 | `C18_depends`, `C18_reads`, `C18_returns` | A call reads exactly the stated bytes, depends on nothing else and changes nothing. |
| C19 | `C19_lsb_first` | The reflected functions equal the least-significant-bit-first algorithm with mirrored polynomial. |
| C20 | `C20_documented`, `C20_exceptions`, `C20_poly_matters` | Polynomials in the comments against the tables; four exceptions (`C20_exceptions`), with messages on which they differ. |
| C21 | `C21_queue_is_fifo` | Refinement to a list; induction over arbitrary histories of calls. Limit: (capacity-1)*element_size < 2^32. |
| C22 | `C22_accepted_calls`, `C22_rejected_calls` | Each call separately, whatever the state. |
| C23 | `C23_queue_stays_inside` | Consequence of the refinement: no history is undefined, and nothing outside buffer and output changes. |
| C24 | `C24_limit_necessary` | Above the limit two slots have the same offset; a history of two enqueues loses an element. |
| C25 | `C25_init_validates`, `C25_null_queue` | Decision table; a null queue with valid arguments is dereferenced. |
| C26 | `C26_init`, `C26_pq_refines`, `C26_spec_deterministic` | Refinement to a list with priorities, induction over histories; the specification determines the results. |
| C27 | `C27_dequeue_empty`, `C27_dequeue_max` | First of the maxima; equal priorities leave in order of arrival. |
| C28 | `C28_eviction`, `C28_room` | A full queue drops the first of the minima if the new priority is strictly greater, else rejects. |
| C29 | `C29_conservation` | Multisets: content = accepted - delivered - evicted, along any history. |
| C30 | `C30_pq_stays_inside` | Consequence of the refinement. |
| C31 | `C31_map_init`, `C31_map_refines` | Refinement to an association list with distinct keys. Limits: (n-1)*size < 2^31 for keys and values. |
| C32 | `C32_entry_count`, `C32_failure_changes_nothing`, `C32_insert_fails_iff` | Consequences of the refinement; failure changes neither map nor memory. |
| C33 | `C33_map_stays_inside` | Consequence of the refinement. |
| C34 | `C34_init_exact`, `C34_negative_capacity`, `C34_negative_key_size`, `C34_negative_value_size`, `C34_null_map`, `C34_offset_overflow` | Init as a decision table, null map dereferenced; int offset overflow at the first entry with offset >= 2^31. Negative key or value size: the second insertion is undefined. Negative capacity: the map is never full and leaves its arrays. |
| C35 | `C35_run_beyond`, `C35_run_schedule`, `C35_run_steps` | Relational schedule of the calls, where every task may change the table and the world. |
| C36 | `C36_add`, `C36_add_full` | First slot with a null function. |
| C37 | `C37_first_n`, `C37_history`, `C37_init`, `C37_null_add` | Histories init-add-run. A task with null function is accepted but does not take the slot. |
| C38 | `C38_bubble_sorts` | Byte-level loops refine a list algorithm; sortedness and permutation there. Any strict weak order. i*size < 2^31. |
| C39 | `C39_selection_sorts` | As C38. |
| C40 | `C40_insertion_sorts`, `C40_too_large` | As C38, given a readable element before the buffer; element_size > 64 overflows the static buffer (`C40_too_large`). |
| C41 | `C41_heap_sorts` | As C38, given readable memory behind the buffer (two elements suffice). |
| C42 | `C42_bubble_stable`, `C42_heap_unstable`, `C42_insertion_stable`, `C42_selection_unstable` | Stability of bubble and insertion sort for all inputs; witnesses for selection and heap sort. |
| C43 | `C43_bubble_any`, `C43_heap_any`, `C43_insertion_any`, `C43_selection_any` | Every comparator, also one that is no order: termination, permutation, frame. |
| C44 | `C44_heap_odd_depends`, `C44_heap_oob_even`, `C44_heap_oob_one` | Any input of even size, or of one element: out-of-bounds read, for every comparator. Odd sizes: witness in both directions. |
| C45 | `C45_insertion_oob` | If and only if: the prefix order of the input decides. |
| C46 | `C46_all_agree`, `C46_bubble_idempotent`, `C46_insertion_idempotent`, `C46_selection_idempotent`, `C46_stable_agree` | Sorted lists are fixed points; all sorts agree up to equivalence; stable sorts agree exactly. |
| C47 | `C47_bytes`, `C47_rfc8439` | Refinement to a specification in the style of RFC 8439 (state matrix, column and diagonal rounds). |
| C48 | `C48_involution` | xor twice. |
| C49 | `C49_in_place` | plaintext = result allowed; the argument blocks may coincide. |
| C50 | `C50_seekable` | Counter offset: bytes from 64k on are the encryption with counter + k. |
| C51 | `C51_distinct`, `C51_reuse`, `C51_wraps` | Modulo 2^32: after 2^32 blocks the key stream repeats; below that the counters are distinct. |
| C52 | `C52_empty`, `C52_needs`, `C52_reads_only` | Reads only the named ranges; each of them is necessary. |
| C53 | `C53_encrypt`, `C53_needs_nul` | Pointwise; needs the NUL. |
| C54 | `C54_decrypt_exact`, `C54_encrypt_inverse`, `C54_large_shift`, `C54_round_trip_fails`, `C54_round_trip_iff` | Round trip exactly if no letter wraps; a wrapped letter comes out four places early; encryption with 26 - shift mod 26 inverts. |
| C55 | `C55_round_trip_fails`, `C55_vernam_round_trip` | Alphabetic keys; witness "A"/"1" for others. |
| C56 | `C56_decrypt_may_truncate`, `C56_longer_message_fails`, `C56_right_length`, `C56_wrong_length` | Wrong length: false and nothing changes. A decryption may write NUL (signed char, key byte 0x82). |
| C57 | `C57_vernam_difference`, `C57_vernam_sum` | Sum and difference modulo 26 for alphabetic keys. |
| C58 | `C58_encode`, `C58_injective` | Refinement to RFC 4648 (24-bit groups). |
| C59 | `C59_round_trip`, `C59_short_fails` | Round trip for at least three bytes; failure for one and two (and for no) bytes. |
| C60 | `C60_encode_overflow`, `C60_encode_status` | Exact status, incl. overflow of the length computation. |
| C61 | `C61_encode_bounds`, `C61_off_by_one` | Exact number of bytes written; a buffer of max_result_length bytes is overrun exactly if the length is a multiple of four and reached. |
| C62 | `C62_decode`, `C62_short` | Exact acceptance condition; characters outside the alphabet count as 0. |
| C63 | `C63_footprint`, `C63_reads_behind`, `C63_reads_out_of_bounds` | Frame; the byte behind the input is used for lengths 1 mod 4. |
| C64 | `C64_additions`, `C64_build` | Induction over the list of members. |
| C65 | `C65_add`, `C65_end`, `C65_start` | Exact size conditions. |
| C66 | `C66_trailing_comma`, `C66_unchanged`, `C66_witness` | Failure after a member leaves a trailing comma; ending then succeeds. |
| C67 | `C67_additions`, `C67_bounds`, `C67_empty`, `C67_full`, `C67_witness` | Exact conditions for staying inside, one call and any sequence of calls. |
| C68 | `C68_findByKey`, `C68_lookup` | Refinement to a text-level search. |
| C69 | `C69_build_then_find`, `C69_lookup`, `C69_proviso` | The occurrence condition is discharged for keys without structural characters (`C69_proviso`). |
| C70 | `C70_runs`, `C70_suffix`, `C70_wrong` | Witness documents and general forms. |
| C71 | `C71_footprint`, `C71_huge` | Frame and termination. For buffer_size - key_size a multiple of 2^32 nothing is found (`C71_huge`). |
| C72 | `C72_published`, `crc_names`, `crc_checks` | `crc_names`, `crc_checks`: exactly one catalogue entry per function, whose parameters give the published check value; then C13-C19. |
| C73 | `C73_functions`, `C73_residue`, `C73_send` | Linear algebra over GF(2): the register after the checksum is constant; injectivity for the converse. |
| C74 | `C74_functions`, `C74_odd_errors`, `C74_undetected`, `C74_which` | Divisibility by x+1. |
| C75 | `C75_all`, `C75_functions`, `C75_orders`, `C75_two_bits` | Order of x modulo the polynomial, certified by factorised orders and repeated squaring in the kernel. |
| C76 | `C76_few_bits`, `C76_functions`, `C76_sharp` | From C16, C74 and C75; sharpness by an explicit error. |
| C77 | `C77_key_reuse`, `C77_one_key` | Exactly one key per pair of texts of the same shape. |
| C78 | `C78_distinct`, `C78_period`, `C78_shifts_add` | Shifts modulo 26. |
| C79 | `C79_malleable`, `C79_prefix`, `C79_reuse_leaks` | From the refinement of C47. |
| C80 | `C80_empty`, `C80_every_value`, `C80_numerals` | The numeral of v in the specification is `Nat.toDigits 10`, independent of C01's fold. |
| C81 | `C81_big_endian_order`, `C81_little_endian_order`, `C81_opposite` | Mirrored bytes; lexicographic order of big-endian bytes. |
| C82 | `C82_equidistributed`, `C82_forge`, `C82_functions` | Existence and uniqueness by bijectivity of the w-bit step; counting with `Nat.card`. |
| C83 | `C83_ascii`, `C83_exactly`, `C83_json` | Grammar of RFC 8259 as inductive predicates over bytes; unique parse. |
| C84 | `C84_backslash`, `C84_injection` | Text equality of the documents; no parse for a trailing reverse solidus. |
| C85 | `C85_end_to_end` | Composition of C47, C58, C62, C64, C68, C69 over two memories. |
| C86 | `C86_bubble_elements`, `C86_heap_elements`, `C86_insertion_elements`, `C86_selection_elements` | The runs with two comparators that agree on the elements are equal (congruence through all loops); a comparator that is an order on the elements extends to one on all lists; then C38-C42. |
| C87 | `C87_float64_nan`, `C87_float64_sorted`, `C87_int32_sorted`, `C87_integers_unique`, `C87_uint64_sorted` | The comparators on bit-vectors equal the comparison of the values (doubles: order of the 63 lower bits = order of the IEEE values); then C86. NaN: a pass that swaps nothing. |
| C88 | `C88_interleaving`, `C88_noninterference` | Invariant: every container's structure and blocks represent its abstract state; a valid call keeps the others' (disjoint blocks) and steps its own as in C18-C33; induction over the interleaving. Non-interference: the ideal answers are determined by the requests to that container. |
| C89 | `C89_combine`, `C89_determines`, `C89_exchange` | Linearity of the register (C17) and injectivity of the register step (constant term 1). |
| C90 | `C90_bursts`, `C90_fraction`, `C90_functions`, `C90_longer`, `C90_next` | The error pattern is divided by the register; exactly one choice of w bits empties it (counting by bijections). |
| C91 | `C91_distinct`, `C91_same_polynomial` | All checksums of the message 02 evaluated by the kernel (complete table over the pairs); linearity. |
| C92 | `C92_fifo`, `C92_linearizable`, `C92_uninterrupted_dequeue`, `C92_uninterrupted_enqueue`, `C92_wait_free` | Model/QueueSteps.lean cuts the two functions into single accesses (proved equal to the sequential model when not interrupted). Invariant over all interleavings with one slot in transit on each side; the instants are the updates of size (successful calls) and the guards (refused calls). FIFO prefix as a consequence of linearizability. |
| C93 | `C93_duplicated`, `C93_lost`, `C93_not_linearizable`, `C93_two_consumers`, `C93_two_producers` | Concrete interleavings evaluated by the kernel; non-linearizability by the consequence proved for C92. |
| C94 | `C94_bubble`, `C94_heap`, `C94_insertion`, `C94_instances`, `C94_selection` | Model/SortEffects.lean repeats the four sorts with an arbitrary computation as comparison function; the effect-free model is an instance. Simulation (Proofs/Relate.lean) between the two runs on memories that agree outside the objects written to, where an invariant of the comparison function holds. |
| C95 | `C95_bubble`, `C95_bubble_best`, `C95_heap`, `C95_insertion`, `C95_insertion_best`, `C95_selection` | A comparison function that writes an entry into a log at each call; lower and upper bounds for the entries are composed along the code (Proofs/Relate.lean), the exact counts on ordered arrays by following the run. |
| C96 | `C96_constant_time`, `C96_same_code`, `C96_total` | Model/Leak.lean repeats the code with an observer (C/Leak.lean); erasing the observer gives the model (proved). The observation of every part is computed as a function of pointers and length. |
| C97 | `C97_base64`, `C97_base64_digits`, `C97_crc16`, `C97_crc32`, `C97_crc8`, `C97_same_code` | The lookups of a run are computed: digits of the data (Spec/Leak.lean), or a chain of indices each of which is injective in the byte; digits are injective because RFC 4648 text is. |
| C98 | `C98_decrypt`, `C98_encrypt`, `C98_same_code` | Relational induction over the rounds: kinds of the characters of both runs agree; the only further observation is the sign in decryption, for letters a comparison of alphabet positions (kernel-checked for all bytes). |
| C99 | `C99_decode`, `C99_encode`, `C99_round_trip` | Model/Ilp32.lean repeats base64.c with 32-bit size_t; equality with the 64-bit model, operation by operation, under the invariant 3*current_length = 4*in_position; the round trip is transferred. |

## Findings

Behaviour of the code that a user would not expect.  Each is a theorem (the property statements are worded accordingly).

* `CaesarCipher_decrypt`: a letter that wrapped comes back four places too early, so decryption inverts encryption only if no letter
  wraps; shifts of 26 and more are never undone (C54).
* `VernamCipher_*`: keys must be alphabetic; the comment asks for a key size of at least the message's, the code for equality (C55, C56).
* `Base64_encode` writes its NUL at index `max_result_length` if the text fills the limit; the project's own test does this with
  a buffer that is too small (C61).  `Base64_decode` refuses one and two bytes of data (C59), reads the byte behind an input whose
  length is 1 mod 4 (C63) and accepts every character (C62).
* `Json_addData` reads before an empty buffer and writes the comma before the size check: one byte behind the buffer, or a
  trailing comma (C66, C67).  Nothing is escaped (C84).  `Json_findByKey` looks at the first occurrence only (C70).
* `CompareFloat64` of the test helpers is no order when NaNs occur: bubble sort leaves 2.0, NaN, 1.0 as it is (C87).
* `HeapSort_sort` reads behind the array it sorts for every even size (C44), `InsertionSort_sort` before it whenever a
  new minimum arrives (C45), and overflows a static buffer for elements of more than 64 bytes (C40).
* `InsertionSort_sort` is not re-entrant: called again from a comparison function it loses all elements but the first (C106).
* `PriorityQueue_enqueue` on a full queue with an item that points at an entry of the queue's own arrays stores the wrong entry, or copies an element onto itself (C104).
* `Queue_*` with more than 4 GiB of storage loses elements (C24), priority queues too (C102); `Map_init` accepts negative sizes (C34).
* `Queue_enqueue` and `Queue_dequeue` both update `size`: an interrupt between its load and its store duplicates or loses elements;
  protecting this one statement is enough for one producer and one consumer (C92, C93).
* `PriorityQueue_*` need a lock around the whole call: an interrupting call loses, duplicates or invents entries, or runs out of the arrays (C109).
* `Map_*` need one too: two interleaved insertions of new keys duplicate, mix, invent or lose entries or run out of the arrays, although both report success; lookups can get half of an old value (C111).
* `Map_insert` of a key with a pointer to its own stored value, and `Map_getValue` into the value found, copy a range onto itself, although the comments in Src/map.c say that overlap cannot happen (C114).
* `Scheduler_addTask` needs a lock against itself: an addition that interrupts another between finding and filling the slot is lost although it reports success; `Scheduler_run` reads `function` twice and calls a null pointer if `Scheduler_init` comes in between (C115).
* `PriorityQueue_dequeue` into the place of a newer entry of the same queue reports success, but the caller finds the element of another entry there (C116).
* `Chacha20_crypt` with the key inside the result silently goes on under result bytes as the key after the block(s) holding it; that part of the message can be read by anyone who has the result. With a result that begins inside the message the rest of the message is lost (C117).
* `VernamCipher_decrypt` with the key at the message, or starting in front of it and reaching into it, does not undo `VernamCipher_encrypt` with the same arguments (C117).
* `CaesarCipher_decrypt` turns letters that wrapped into different wrong letters on targets with a 16-bit and a 32-bit `int` (C118): "a" with shift 1 becomes "p" or "v" instead of "z".
* The eight 8-bit CRC functions with an even divisor do not notice that two neighbouring bytes with a certain difference change places (C120).
* `Json_findByKey` with a `buffer_size` of 2^32 - 1 or more counts in `uint32_t`: it misses keys, returns the name of the first member or the beginning of the buffer as a value, or never returns (C121).
* `Map_getValue` compares keys with `memcmp`, so the time of a lookup tells how many leading bytes of the key asked for agree
  with each stored key (C133): keys that are secrets can be found out byte by byte.
* `Json_findByKey` searches all `buffer_size` bytes and does not stop at the NUL (C140): in a buffer used again for a
  shorter document, keys of the earlier one are still found (`C140_stale_witness`). Passing the length of the text avoids it.
* `BitManipulation_rotl32` with 0 bits is undefined (C11); `Utils_*BlobLE` from 2^31 bytes on (C06).
* Fifteen CRC functions notice zero bytes neither in front of a message nor behind a frame, and take a dead line (all zeros) for a correct frame (C107).
* `Utils_*BlobLE` on a range in place does not reverse it (C108).
* `Base64_encode` in place is wrong; the data must start at least one byte per group behind the text (C112). `Json_addData` with a key or value from the buffer's own text is undefined if it fits (C112).
* `Scheduler_addTask` accepts a null function without using the slot (C37).
* Json_addData with a 32-bit `size_t`: the size check wraps if the new text would have 2^32 - 1 characters or more; the copy then runs past the buffer (C100). With a 16-bit `size_t` the same happens at 2^16 (C122). Json_endString writes past the end behind a text of 2^32 - 2 (2^16 - 2) characters.
* Four 32-bit CRC functions document another polynomial than they use (C20).  They compute the published CRC of their name (C72).
* `Utils_stringToUint32` accepts the empty text as 0 (C80).

## Wrong programs

`seeded/LOG.jsonl` records edits of the model that a careless programmer could make, each tried in a scratch copy.  Failing helper
lemmas were replaced by unproved statements so that the build went on to the property theorems.  "theorems_failed" lists the
property theorems whose own proof failed or that use a lemma that failed, "failing_proofs" the proofs that failed themselves.
Entries whose `claim_broken` begins with "none" are controls: edits that break no claim.  Proofs of helper lemmas follow the text of
the model, so they may fail on a control too; a failed lemma alone does not show that a claim became false.  A `note` says where a
run ended early and which theorems it therefore leaves unsettled.
