{"id": "C01", "title": "String-to-integer accepts exactly the decimal uint32 numerals of at most ten digits", "statement": "Utils_stringToUint32(str,len,&n) returns true exactly when len <= 10, every one of the len characters is an ASCII digit and the denoted number is <= 4294967295; on success n is that number (the empty string is accepted as 0). It never reads outside str[0..len).", "quantifier": "all byte strings, all lengths 0..255, both signednesses of char", "why_tests_cant": "10^10 accepted strings and 256^255 rejected ones; the overflow boundary and every mixed digit/non-digit pattern must be right at once", "anchors": ["Src/utils.c:Utils_stringToUint32"]}
{"id": "C02", "title": "Power-of-ten lookup is exact and total", "statement": "Utils_quickUint32Pow10(e,&r) returns true and stores 10^e exactly when e < 10; otherwise it returns false and leaves r untouched.", "quantifier": "all 256 exponents, all previous contents of r", "why_tests_cant": "the 'leaves r untouched' half ranges over all 2^32 previous values", "anchors": ["Src/utils.c:Utils_quickUint32Pow10"]}
{"id": "C03", "title": "Fixed-width serialisation round-trips", "statement": "For each of the 8/16/24/32-bit big- and little-endian pairs, deserialising the bytes just serialised gives back the value (24-bit: the value modulo 2^24), and serialising a deserialised value restores the same bytes.", "quantifier": "all values, all buffers, all offsets", "why_tests_cant": "2^32 values and arbitrary surrounding memory", "anchors": ["Src/utils.c:Utils_serialize8", "Src/utils.c:Utils_serialize16BE", "Src/utils.c:Utils_serialize24BE", "Src/utils.c:Utils_serialize32BE", "Src/utils.c:Utils_serialize16LE", "Src/utils.c:Utils_serialize24LE", "Src/utils.c:Utils_serialize32LE", "Src/utils.c:Utils_deserialize8", "Src/utils.c:Utils_deserialize16BE", "Src/utils.c:Utils_deserialize24BE", "Src/utils.c:Utils_deserialize32BE", "Src/utils.c:Utils_deserialize16LE", "Src/utils.c:Utils_deserialize24LE", "Src/utils.c:Utils_deserialize32LE"]}
{"id": "C04", "title": "Serialised byte order is the documented one", "statement": "The k-byte big-endian serialiser writes the base-256 digits of the value most significant first, the little-endian one least significant first; deserialisers evaluate the bytes with the same weights.", "quantifier": "all values and all byte buffers", "why_tests_cant": "must hold for each of 2^32 values", "anchors": ["Src/utils.c:Utils_serialize32BE", "Src/utils.c:Utils_serialize32LE", "Src/utils.c:Utils_deserialize32BE", "Src/utils.c:Utils_deserialize32LE"]}
{"id": "C05", "title": "Serialisers write exactly their own bytes", "statement": "A k-byte serialiser changes exactly the k bytes at the destination, nothing else in any object, and is free of out-of-bounds access exactly when k bytes are available there; deserialisers change nothing, need exactly their k bytes and depend on nothing else.", "quantifier": "all memories, offsets, values", "why_tests_cant": "tests inspect a few neighbouring bytes of one buffer only", "anchors": ["Src/utils.c:Utils_serialize16BE", "Src/utils.c:Utils_serialize24LE", "Src/utils.c:Utils_serialize32LE"]}
{"id": "C06", "title": "Blob serialisation: BE copies, LE reverses, and both round-trip", "statement": "Utils_serializeBlobBE/deserializeBlobBE copy the size bytes in order, the LE pair stores them in reverse order; for separate buffers deserialise-after-serialise restores the source. Only the size destination bytes change. For LE this requires size <= 2^31-1: beyond that the loop copies nothing (size > 2^31) or overflows (size = 2^31).", "quantifier": "all sizes, all contents, all memories; the LE boundary at 2^31", "why_tests_cant": "tests cannot allocate and try all sizes up to 2^32", "anchors": ["Src/utils.c:Utils_serializeBlobBE", "Src/utils.c:Utils_deserializeBlobBE", "Src/utils.c:Utils_serializeBlobLE", "Src/utils.c:Utils_deserializeBlobLE"]}
{"id": "C07", "title": "Swapping exchanges two elements and nothing else", "statement": "Utils_swapElements(a,b,size) exchanges the two size-byte ranges when they are disjoint or identical, leaves every other byte alone, and doing it twice is the identity.", "quantifier": "all sizes, contents, positions (same or different objects)", "why_tests_cant": "unbounded sizes and contents", "anchors": ["Src/utils.c:Utils_swapElements"]}
{"id": "C08", "title": "Character classification is exact", "statement": "Utils_isUpperChar is true exactly on 'A'..'Z', Utils_isLowerChar exactly on 'a'..'z', Utils_isAlpha exactly on their (disjoint) union, whatever the signedness of char.", "quantifier": "all 256 characters", "why_tests_cant": "needs the whole domain; tests sample", "anchors": ["Src/utils.c:Utils_isUpperChar", "Src/utils.c:Utils_isLowerChar", "Src/utils.c:Utils_isAlpha"]}
{"id": "C09", "title": "Bit reflection mirrors exactly the low n bits", "statement": "For n <= 32, bit p of BitManipulation_reflect(x,n) is bit n-1-p of x for p < n and 0 for p >= n; reflecting twice returns x modulo 2^n. It is free of undefined behaviour for every n in 0..255 (beyond 32, bit p goes to bit (n-1-p) mod 32).", "quantifier": "all 2^32 values, all 256 widths", "why_tests_cant": "2^40 input pairs", "anchors": ["Src/bit_manipulation.c:BitManipulation_reflect"]}
{"id": "C10", "title": "Single-bit operations touch exactly one bit and reject n > 31", "statement": "For n <= 31 bitSet reports bit n, setBit/clearBit/toggleBit return data with exactly bit n set/cleared/inverted; for n > 31 they return false and leave the output untouched; toggling twice is the identity.", "quantifier": "all data words, all 256 bit numbers, all prior outputs", "why_tests_cant": "2^40 input pairs and a frame condition on the output", "anchors": ["Src/bit_manipulation.c:BitManipulation_bitSet", "Src/bit_manipulation.c:BitManipulation_setBit", "Src/bit_manipulation.c:BitManipulation_clearBit", "Src/bit_manipulation.c:BitManipulation_toggleBit"]}
{"id": "C11", "title": "rotl32 is a 32-bit rotation for 1..31 and undefined outside", "statement": "For 1 <= n <= 31 BitManipulation_rotl32(x,n) moves bit i to bit (i+n) mod 32 (so rotating by n then 32-n is the identity). For n = 0 and n >= 32 the C expression shifts by >= 32: undefined behaviour.", "quantifier": "all words, all 2^32 rotation counts", "why_tests_cant": "2^64 input pairs; UB is not observable by a test", "anchors": ["Src/bit_manipulation.c:BitManipulation_rotl32"]}
{"id": "C12", "title": "Every shipped lookup table is the generated table of its polynomial", "statement": "For each of the 45 variants the constant 256-entry table equals what CrcNBase_tableCalculator writes for the variant's polynomial.", "quantifier": "all 45 variants x all 256 entries", "why_tests_cant": "a wrong entry only shows on messages that reach it; existing tests use seven short messages", "anchors": ["Src/crc/crc8_base.c:Crc8Base_tableCalculator", "Src/crc/crc16_base.c:Crc16Base_tableCalculator", "Src/crc/crc32_base.c:Crc32Base_tableCalculator", "Src/crc/crc8_variants", "Src/crc/crc16_variants", "Src/crc/crc32_variants"]}
{"id": "C13", "title": "Table generator and table-driven loop implement bitwise polynomial division", "statement": "For every polynomial, entry d of the generated table is the result of 8 shift/xor steps on d, and CrcNBase with that table equals the bit-at-a-time CRC of the message.", "quantifier": "all polynomials, initial values, flags and messages of any length", "why_tests_cant": "unbounded messages, 2^32 polynomials", "anchors": ["Src/crc/crc8_base.c:Crc8Base_tableCalculator", "Src/crc/crc16_base.c:Crc16Base_tableCalculator", "Src/crc/crc32_base.c:Crc32Base_tableCalculator", "Src/crc/crc8_base.c:Crc8Base", "Src/crc/crc16_base.c:Crc16Base", "Src/crc/crc32_base.c:Crc32Base"]}
{"id": "C14", "title": "The CRC is the remainder of a polynomial division over GF(2)", "statement": "The CRC of a message, after undoing final xor and output reflection, is the coefficient vector of (init*x^(8n) + M(x)*x^w) mod P(x) over GF(2), where the coefficients of M are the message bits in processing order (each byte reversed if the input is reflected).", "quantifier": "all polynomials, initial values and messages", "why_tests_cant": "mathematical identity over unbounded messages", "anchors": ["Src/crc/crc8_base.c:Crc8Base", "Src/crc/crc16_base.c:Crc16Base", "Src/crc/crc32_base.c:Crc32Base"]}
{"id": "C15", "title": "Checksums can be computed in chunks", "statement": "For every variant, cutting a message at any points and chaining the calls through last_crc_ptr (final_crc only on the last call) gives the same checksum as one call on the whole message.", "quantifier": "all 45 variants, all messages, all ways of splitting them", "why_tests_cant": "unbounded messages and splits", "anchors": ["Src/crc/crc8_variants", "Src/crc/crc16_variants", "Src/crc/crc32_variants"]}
{"id": "C16", "title": "Every burst error no longer than the checksum is detected", "statement": "Two messages of equal length whose difference is non-zero and confined to a window of at most w consecutive bits (in particular a single flipped bit) have different checksums, for every variant (every polynomial with constant term 1).", "quantifier": "all variants, all messages of any length, all error patterns", "why_tests_cant": "2^(8n) messages times all error positions", "anchors": ["Src/crc/crc8_base.c:Crc8Base", "Src/crc/crc16_base.c:Crc16Base", "Src/crc/crc32_base.c:Crc32Base", "Src/crc/crc8_variants", "Src/crc/crc16_variants", "Src/crc/crc32_variants"]}
{"id": "C17", "title": "CRC is affine: differences depend only on the error pattern", "statement": "For messages of equal length the xor of their checksums depends only on the xor of the messages; the checksum is an affine function over GF(2), and the dependence on the initial value is linear.", "quantifier": "all messages, all initial values", "why_tests_cant": "unbounded", "anchors": ["Src/crc/crc8_base.c:Crc8Base", "Src/crc/crc16_base.c:Crc16Base", "Src/crc/crc32_base.c:Crc32Base"]}
{"id": "C18", "title": "Checksum calls only read the stated bytes", "statement": "Every CRC call reads exactly crc_length bytes from the data pointer (undefined behaviour exactly if they are not all there), modifies no memory and terminates.", "quantifier": "all memories, lengths, variants", "why_tests_cant": "absence of out-of-bounds reads is not observable", "anchors": ["Src/crc/crc8_base.c:Crc8Base", "Src/crc/crc16_base.c:Crc16Base", "Src/crc/crc32_base.c:Crc32Base", "Src/crc/crc8_variants", "Src/crc/crc16_variants", "Src/crc/crc32_variants"]}
{"id": "C19", "title": "Reflected variants equal the LSB-first algorithm", "statement": "A variant with reflected input and output equals the textbook right-shifting CRC with the bit-reversed polynomial and initial value, for every message.", "quantifier": "all messages, all reflected variants", "why_tests_cant": "unbounded messages", "anchors": ["Src/crc/crc8_base.c:Crc8Base", "Src/crc/crc16_base.c:Crc16Base", "Src/crc/crc32_base.c:Crc32Base", "Src/crc/crc8_variants", "Src/crc/crc16_variants", "Src/crc/crc32_variants"]}
{"id": "C20", "title": "Variants use the polynomial and parameters they document", "statement": "All polynomials stated in the header and source comments of a function are the polynomial it uses, except for Crc32_d, Crc32_posix, Crc32_q and Crc32_xfer, whose comments state a polynomial that yields other checksums than the function on some one-byte message.", "quantifier": "all 45 variants", "why_tests_cant": "documentation consistency is not exercised by tests", "anchors": ["Src/crc/crc8_variants", "Src/crc/crc16_variants", "Src/crc/crc32_variants", "Inc/crc/crc32_variants/crc32_q.h", "Inc/crc/crc32_variants/crc32_d.h", "Inc/crc/crc32_variants/crc32_posix.h", "Inc/crc/crc32_variants/crc32_xfer.h"]}
{"id": "C21", "title": "The queue is a bounded FIFO under every history", "statement": "After a successful Queue_init, any sequence of enqueue/dequeue/front/rear/full/empty calls returns exactly the statuses and elements of an ideal FIFO list bounded by capacity.", "quantifier": "all capacities, element sizes with capacity*element_size <= 2^32, all operation sequences and element values", "why_tests_cant": "unbounded histories, wrap-around of the ring at every phase", "anchors": ["Src/queue.c:Queue_init", "Src/queue.c:Queue_enqueue", "Src/queue.c:Queue_dequeue", "Src/queue.c:Queue_front", "Src/queue.c:Queue_rear", "Src/queue.c:Queue_full", "Src/queue.c:Queue_empty"]}
{"id": "C22", "title": "Rejected queue calls change nothing", "statement": "Enqueue on a full queue, dequeue/front/rear on an empty queue and calls with null pointers return false and leave the queue, its buffer and the output element untouched.", "quantifier": "all reachable queue states", "why_tests_cant": "frame over all states", "anchors": ["Src/queue.c:Queue_init", "Src/queue.c:Queue_enqueue", "Src/queue.c:Queue_dequeue", "Src/queue.c:Queue_front", "Src/queue.c:Queue_rear", "Src/queue.c:Queue_full", "Src/queue.c:Queue_empty"]}
{"id": "C23", "title": "The queue stays inside its buffer", "statement": "With a buffer of capacity*element_size bytes no call of any history reads or writes outside it, and bytes of other objects change only where the caller asked for an element.", "quantifier": "all histories, capacities and element sizes with product <= 2^32", "why_tests_cant": "out-of-bounds accesses are not observable by tests", "anchors": ["Src/queue.c:Queue_init", "Src/queue.c:Queue_enqueue", "Src/queue.c:Queue_dequeue", "Src/queue.c:Queue_front", "Src/queue.c:Queue_rear", "Src/queue.c:Queue_full", "Src/queue.c:Queue_empty"]}
{"id": "C24", "title": "Queue storage above 4 GiB aliases", "statement": "If (capacity-1)*element_size >= 2^32 the 32-bit index product wraps, two live elements share storage and FIFO order breaks: the hypothesis of the FIFO property is necessary.", "quantifier": "all capacities/element sizes beyond the limit", "why_tests_cant": "needs >4 GiB buffers", "anchors": ["Src/queue.c:Queue_init", "Src/queue.c:Queue_enqueue", "Src/queue.c:Queue_dequeue", "Src/queue.c:Queue_front", "Src/queue.c:Queue_rear", "Src/queue.c:Queue_full", "Src/queue.c:Queue_empty"]}
{"id": "C25", "title": "Queue_init validates its arguments", "statement": "Queue_init returns true exactly when element_size and capacity are non-zero and the buffer is non-null; it then yields an empty queue; on failure the structure is unchanged. The queue pointer itself is not checked: a null queue with acceptable arguments is dereferenced.", "quantifier": "all arguments", "why_tests_cant": "2^64 argument pairs", "anchors": ["Src/queue.c:Queue_init"]}
{"id": "C26", "title": "The priority queue refines a bounded list of prioritised elements", "statement": "After a successful init any sequence of enqueue/dequeue/empty returns the statuses and elements of the ideal bounded priority list: append if there is room, else replace the oldest lowest-priority entry if the new priority is higher, else reject; dequeue removes the oldest highest-priority entry.", "quantifier": "all capacities and element sizes with product <= 2^32, all operation sequences, priorities and elements", "why_tests_cant": "unbounded histories", "anchors": ["Src/priority_queue.c:PriorityQueue_init", "Src/priority_queue.c:PriorityQueue_enqueue", "Src/priority_queue.c:PriorityQueue_dequeue", "Src/priority_queue.c:PriorityQueue_empty"]}
{"id": "C27", "title": "Dequeue returns a maximum, first-in first-out among equals", "statement": "A successful dequeue returns an element whose priority is >= every stored priority, and among equal priorities the one enqueued first.", "quantifier": "all reachable states", "why_tests_cant": "all priority patterns", "anchors": ["Src/priority_queue.c:PriorityQueue_init", "Src/priority_queue.c:PriorityQueue_enqueue", "Src/priority_queue.c:PriorityQueue_dequeue", "Src/priority_queue.c:PriorityQueue_empty"]}
{"id": "C28", "title": "Eviction only removes a strictly less important element", "statement": "Enqueue on a full queue succeeds exactly when some stored priority is strictly lower than the new one; it then removes exactly one element, a lowest-priority one (the oldest of these), and keeps all others in order.", "quantifier": "all full states and all new items", "why_tests_cant": "all priority patterns", "anchors": ["Src/priority_queue.c:PriorityQueue_init", "Src/priority_queue.c:PriorityQueue_enqueue", "Src/priority_queue.c:PriorityQueue_dequeue", "Src/priority_queue.c:PriorityQueue_empty"]}
{"id": "C29", "title": "No element is lost or duplicated", "statement": "At every point of every history the multiset of successfully enqueued items equals the multiset of dequeued, evicted and still stored items, and never more than capacity items are stored.", "quantifier": "all histories", "why_tests_cant": "conservation over unbounded histories", "anchors": ["Src/priority_queue.c:PriorityQueue_init", "Src/priority_queue.c:PriorityQueue_enqueue", "Src/priority_queue.c:PriorityQueue_dequeue", "Src/priority_queue.c:PriorityQueue_empty"]}
{"id": "C30", "title": "The priority queue stays inside its two arrays", "statement": "With capacity words of priorities and capacity*element_size bytes of elements no call of any history accesses memory outside them.", "quantifier": "all histories", "why_tests_cant": "not observable by tests", "anchors": ["Src/priority_queue.c:PriorityQueue_init", "Src/priority_queue.c:PriorityQueue_enqueue", "Src/priority_queue.c:PriorityQueue_dequeue", "Src/priority_queue.c:PriorityQueue_empty"]}
{"id": "C31", "title": "The map returns the last value inserted for a key", "statement": "After a successful Map_init with positive sizes, any sequence of insert/getValue behaves as a finite map with at most max_map_size distinct keys: getValue succeeds exactly for keys inserted successfully before and returns the value of the latest successful insert for that key.", "quantifier": "all key/value sizes, all histories of inserts and lookups", "why_tests_cant": "unbounded histories and key sets", "anchors": ["Src/map.c:Map_init", "Src/map.c:Map_insert", "Src/map.c:Map_getValue"]}
{"id": "C32", "title": "Map insertion fails only for a new key in a full map", "statement": "Insert returns false exactly when the key is new and max_map_size distinct keys are already stored (or map is null); updating an existing key always succeeds, also when full, and keeps the number of entries; a failing insert or lookup changes nothing.", "quantifier": "all reachable maps, all keys and values", "why_tests_cant": "all states", "anchors": ["Src/map.c:Map_init", "Src/map.c:Map_insert", "Src/map.c:Map_getValue"]}
{"id": "C33", "title": "Map entries stay inside the caller's arrays", "statement": "With positive sizes, arrays of max_map_size*key_size and max_map_size*value_size bytes and both products below 2^31 no call accesses memory outside them and no signed overflow occurs.", "quantifier": "all histories", "why_tests_cant": "UB is not observable", "anchors": ["Src/map.c:Map_init", "Src/map.c:Map_insert", "Src/map.c:Map_getValue"]}
{"id": "C34", "title": "Map_init accepts arguments that make later calls undefined", "statement": "Map_init only rejects zero sizes: with a negative max_map_size the map never reports full and an insert into exactly sized arrays writes out of bounds; a negative key_size or value_size makes insert pass a huge length to memcpy; a null map with acceptable arguments is dereferenced; a map large enough to reach an entry at byte offset 2^31 overflows int at that entry.", "quantifier": "all negative sizes", "why_tests_cant": "UB is not observable", "anchors": ["Src/map.c:Map_init", "Src/map.c:Map_insert"]}
{"id": "C35", "title": "Scheduler runs exactly the active tasks, once each, in slot order", "statement": "Scheduler_run calls, for each slot in increasing order, the slot's function exactly once if the slot has a function and is active, and calls nothing else.", "quantifier": "all task tables, all task functions (with arbitrary effects on global state, including on the table itself)", "why_tests_cant": "unbounded tables and effects", "anchors": ["Src/scheduler.c:Scheduler_init", "Src/scheduler.c:Scheduler_addTask", "Src/scheduler.c:Scheduler_run"]}
{"id": "C36", "title": "addTask fills the first free slot and reports a full table", "statement": "Scheduler_addTask stores the task in the lowest-numbered slot without a function and changes no other slot; it returns false, changing nothing, exactly when every slot has a function.", "quantifier": "all task tables and tasks", "why_tests_cant": "all tables", "anchors": ["Src/scheduler.c:Scheduler_init", "Src/scheduler.c:Scheduler_addTask", "Src/scheduler.c:Scheduler_run"]}
{"id": "C37", "title": "init-add-run histories", "statement": "After Scheduler_init and any sequence of addTask calls with non-null functions, the first n additions succeed and the others fail; a run executes the active ones among the first n in the order added. Adding a null function reports success but occupies no slot.", "quantifier": "all sequences of additions, all table sizes", "why_tests_cant": "unbounded", "anchors": ["Src/scheduler.c:Scheduler_init", "Src/scheduler.c:Scheduler_addTask", "Src/scheduler.c:Scheduler_run"]}
{"id": "C38", "title": "Bubble sort sorts", "statement": "BubbleSort_sort leaves the first n elements a permutation of the original ones in non-decreasing order and changes no other byte, without any out-of-bounds access on an exactly sized buffer.", "quantifier": "all arrays, element counts, element sizes, contents and strict-weak-order comparators", "why_tests_cant": "n! input orders for unbounded n", "anchors": ["Src/sort/bubble_sort.c:BubbleSort_sort"]}
{"id": "C39", "title": "Selection sort sorts", "statement": "SelectionSort_sort leaves the first n elements a permutation of the original ones in non-decreasing order and changes no other byte, without any out-of-bounds access on an exactly sized buffer.", "quantifier": "all arrays, element counts, element sizes, contents and strict-weak-order comparators", "why_tests_cant": "n! input orders for unbounded n", "anchors": ["Src/sort/selection_sort.c:SelectionSort_sort"]}
{"id": "C40", "title": "Insertion sort sorts (given one readable element before the buffer)", "statement": "InsertionSort_sort leaves the first n elements a sorted permutation and changes no other byte of the buffer object, for element_size <= 64, whatever the contents of the element_size bytes that precede the array and provided these are readable.", "quantifier": "all arrays, element counts, element sizes, contents and strict-weak-order comparators, element_size <= 64", "why_tests_cant": "n! input orders for unbounded n", "anchors": ["Src/sort/insertion_sort.c:InsertionSort_sort"]}
{"id": "C41", "title": "Heap sort sorts (given readable memory behind the buffer)", "statement": "HeapSort_sort leaves the first n elements a sorted permutation and changes no other byte, whatever the contents of the memory behind the array and provided it is readable up to element index 2n.", "quantifier": "all arrays, element counts, element sizes, contents and strict-weak-order comparators", "why_tests_cant": "n! input orders for unbounded n", "anchors": ["Src/sort/heap_sort.c:HeapSort_sort"]}
{"id": "C42", "title": "Bubble and insertion sort are stable", "statement": "Elements that compare equal keep their original relative order.", "quantifier": "all arrays, element counts, element sizes, contents and strict-weak-order comparators", "why_tests_cant": "all tie patterns", "anchors": ["Src/sort/bubble_sort.c:BubbleSort_sort", "Src/sort/insertion_sort.c:InsertionSort_sort"]}
{"id": "C43", "title": "Every comparator: termination, permutation, frame", "statement": "With an arbitrary (even inconsistent) comparator every sort terminates, permutes the elements and changes nothing else.", "quantifier": "all comparators, including non-transitive ones", "why_tests_cant": "all comparators", "anchors": ["Src/sort/bubble_sort.c:BubbleSort_sort", "Src/sort/selection_sort.c:SelectionSort_sort", "Src/sort/insertion_sort.c:InsertionSort_sort", "Src/sort/heap_sort.c:HeapSort_sort"]}
{"id": "C44", "title": "Heap sort reads outside the array it sorts", "statement": "HeapSort_sort hands the comparator elements behind the array: with a buffer of exactly n elements the call is undefined for n = 1 and for every even n >= 2, whatever the contents.", "quantifier": "all contents, all comparators, all such n", "why_tests_cant": "UB is not observable", "anchors": ["Src/sort/heap_sort.c:HeapSort_sort"]}
{"id": "C45", "title": "Insertion sort reads before the array exactly when a new minimum arrives", "statement": "On a buffer starting at the array, InsertionSort_sort reads the element before the array exactly when some element is smaller than all elements before it.", "quantifier": "all arrays and strict weak orders", "why_tests_cant": "UB is not observable", "anchors": ["Src/sort/insertion_sort.c:InsertionSort_sort"]}
{"id": "C46", "title": "Sorting is idempotent and all four sorts agree", "statement": "Sorting a sorted array leaves it unchanged (bubble, insertion, selection), and for comparators whose ties are identical elements all four sorts produce the same array.", "quantifier": "all arrays, element counts, element sizes, contents and strict-weak-order comparators", "why_tests_cant": "unbounded", "anchors": ["Src/sort/bubble_sort.c:BubbleSort_sort", "Src/sort/selection_sort.c:SelectionSort_sort", "Src/sort/insertion_sort.c:InsertionSort_sort", "Src/sort/heap_sort.c:HeapSort_sort"]}
{"id": "C47", "title": "ChaCha20 implements RFC 8439", "statement": "Byte i of the result is byte i of the input xored with byte i mod 64 of the RFC 8439 block function for the given key, nonce and counter inc + i/64 (mod 2^32).", "quantifier": "all keys, nonces, counters, messages of any length < 2^32", "why_tests_cant": "2^384 key/nonce/counter combinations and unbounded messages", "anchors": ["Src/crypto/chacha20.c:Chacha20_crypt", "Src/crypto/chacha20.c:Block", "Src/crypto/chacha20.c:QuarterRound"]}
{"id": "C48", "title": "ChaCha20 decryption inverts encryption", "statement": "Applying Chacha20_crypt twice with the same key, nonce and counter restores the message.", "quantifier": "all keys, nonces, counters, messages", "why_tests_cant": "as above", "anchors": ["Src/crypto/chacha20.c:Chacha20_crypt"]}
{"id": "C49", "title": "ChaCha20 may be used in place", "statement": "Calling Chacha20_crypt with result == plaintext gives the same output as with separate buffers.", "quantifier": "all inputs, all lengths", "why_tests_cant": "aliasing over all lengths", "anchors": ["Src/crypto/chacha20.c:Chacha20_crypt"]}
{"id": "C50", "title": "ChaCha20 streams are seekable", "statement": "Encrypting a message in pieces cut at multiples of 64 bytes, with the counter advanced by the number of blocks, gives the same ciphertext as one call.", "quantifier": "all messages and cut points", "why_tests_cant": "unbounded", "anchors": ["Src/crypto/chacha20.c:Chacha20_crypt"]}
{"id": "C51", "title": "The ChaCha20 block counter wraps", "statement": "The 32-bit block counter wraps silently: blocks whose indices differ by 2^32 would reuse the key stream; within one call (length < 2^32 bytes) all block counters are distinct.", "quantifier": "all counters and lengths", "why_tests_cant": "needs 256 GiB messages", "anchors": ["Src/crypto/chacha20.c:Chacha20_crypt"]}
{"id": "C52", "title": "ChaCha20 memory footprint", "statement": "Chacha20_crypt reads exactly plaintext_len message bytes, 32 key bytes and 12 nonce bytes and writes exactly plaintext_len result bytes.", "quantifier": "all memories and lengths", "why_tests_cant": "not observable by tests", "anchors": ["Src/crypto/chacha20.c:Chacha20_crypt"]}
{"id": "C53", "title": "Caesar encryption shifts letters and only letters", "statement": "CaesarCipher_encrypt replaces each ASCII letter by the letter shift places further in the alphabet (cyclically, same case), leaves every other character and the length unchanged.", "quantifier": "all messages, all 256 shifts", "why_tests_cant": "unbounded messages", "anchors": ["Src/crypto/caesar_cipher.c:CaesarCipher_encrypt"]}
{"id": "C54", "title": "Caesar decryption inverts encryption exactly when no letter wraps", "statement": "CaesarCipher_decrypt(CaesarCipher_encrypt(m,s),s) = m if and only if no letter of m goes past the end of the alphabet when shifted by s; a wrapped letter comes back four places too early (\"z\" with shift 1 comes back as \"v\"), while encrypting with 26 - s%26 always restores m.", "quantifier": "all messages and shifts", "why_tests_cant": "the only test uses a message without wrap-around", "anchors": ["Src/crypto/caesar_cipher.c:CaesarCipher_encrypt", "Src/crypto/caesar_cipher.c:CaesarCipher_decrypt"]}
{"id": "C55", "title": "Vernam round trip", "statement": "For alphabetic keys of the message's length, decrypt(encrypt(m,k),k) = m for every message. (False for keys with non-letters.)", "quantifier": "all messages and keys", "why_tests_cant": "unbounded", "anchors": ["Src/crypto/vernam_cipher.c:VernamCipher_encrypt", "Src/crypto/vernam_cipher.c:VernamCipher_decrypt"]}
{"id": "C56", "title": "Vernam status and frame", "statement": "Both functions return true exactly when strlen(msg) = key_length (message shorter than 2^31); otherwise the message is unchanged; non-letters and memory outside the message are never changed; encryption preserves the length for every key and decryption for alphabetic keys (with other keys decryption can write a NUL).", "quantifier": "all messages, keys, lengths", "why_tests_cant": "unbounded", "anchors": ["Src/crypto/vernam_cipher.c:VernamCipher_encrypt", "Src/crypto/vernam_cipher.c:VernamCipher_decrypt"]}
{"id": "C57", "title": "Vernam encryption is the letterwise sum", "statement": "With an alphabetic key each letter of the message is shifted cyclically by the alphabet index of the key letter, preserving its case.", "quantifier": "all messages and alphabetic keys", "why_tests_cant": "unbounded", "anchors": ["Src/crypto/vernam_cipher.c:VernamCipher_encrypt"]}
{"id": "C58", "title": "Base64 encoding is RFC 4648", "statement": "On success Base64_encode writes the RFC 4648 encoding of the data (standard alphabet, '=' padding) followed by NUL.", "quantifier": "all data of any length", "why_tests_cant": "unbounded data", "anchors": ["Src/base64.c:Base64_encode"]}
{"id": "C59", "title": "Base64 round trip", "statement": "Decoding the encoding of data of at least 3 bytes restores the data; for 0, 1 and 2 bytes Base64_decode reports failure for its own encoder's output.", "quantifier": "all data of any length", "why_tests_cant": "unbounded data; existing tests miss the short cases", "anchors": ["Src/base64.c:Base64_encode", "Src/base64.c:Base64_decode"]}
{"id": "C60", "title": "Base64_encode fails exactly when the text does not fit", "statement": "Base64_encode returns 0 exactly when 4*ceil(n/3) <= max_result_length; on failure it has written only a prefix of the encoding, NUL-terminated.", "quantifier": "all lengths and limits, including size_t overflow", "why_tests_cant": "2^128 length pairs", "anchors": ["Src/base64.c:Base64_encode"]}
{"id": "C61", "title": "Base64_encode writes at most max_result_length+1 bytes", "statement": "The terminating NUL may be written at index max_result_length: with a result buffer of exactly max_result_length bytes the call writes one byte out of bounds exactly when the text produced fills it.", "quantifier": "all data and limits", "why_tests_cant": "one-byte overflow is not observable by tests (the existing test Hehe/4 triggers it)", "anchors": ["Src/base64.c:Base64_encode"]}
{"id": "C62", "title": "Base64_decode acceptance", "statement": "Base64_decode succeeds or fails depending only on the input length, whether it ends in '=', whether the third character of a final partial group is '=' and the output limit; it never rejects characters outside the alphabet.", "quantifier": "all inputs and limits", "why_tests_cant": "all byte strings", "anchors": ["Src/base64.c:Base64_decode"]}
{"id": "C63", "title": "Base64_decode memory footprint", "statement": "Base64_decode writes at most max_out_len bytes, and reads only the input, except for one byte behind it when the length is 1 mod 4 (undefined if that byte does not exist); output may overlap the input from its start (in-place decoding).", "quantifier": "all inputs", "why_tests_cant": "not observable by tests", "anchors": ["Src/base64.c:Base64_decode"]}
{"id": "C64", "title": "The JSON builder produces the expected text", "statement": "Start, any sequence of successful additions and end produce exactly {\"k1\":\"v1\",...,\"kn\":\"vn\"} followed by NUL.", "quantifier": "all lists of keys and values", "why_tests_cant": "unbounded", "anchors": ["Src/json.c:Json_startString", "Src/json.c:Json_addData", "Src/json.c:Json_endString"]}
{"id": "C65", "title": "JSON additions succeed exactly when the text fits", "statement": "Json_addData succeeds exactly when the resulting text and its NUL fit in buffer_size; Json_startString/Json_endString likewise.", "quantifier": "all buffers, keys, values", "why_tests_cant": "all sizes", "anchors": ["Src/json.c:Json_startString", "Src/json.c:Json_addData", "Src/json.c:Json_endString"]}
{"id": "C66", "title": "What a failed JSON addition leaves behind", "statement": "A Json_addData call that returns false changes nothing if the text does not end in a quote; behind an earlier member it leaves a trailing comma, and ending the document then succeeds with a text ending in ,} that is no document of the builder. (So the natural expectation that a failed addition leaves the text unchanged is false.)", "quantifier": "all buffers, keys, values", "why_tests_cant": "boundary sizes", "anchors": ["Src/json.c:Json_addData"]}
{"id": "C67", "title": "When Json_addData stays inside the buffer", "statement": "With a buffer of buffer_size bytes holding a non-empty NUL-terminated text, Json_addData accesses only the buffer, key and value, unless the text ends in a quote and fills the buffer, in which case one byte is written behind it; over any sequence of additions the overflow happens exactly when such a text is reached. For the empty text buffer[-1] is read.", "quantifier": "all buffers, keys, values", "why_tests_cant": "UB is not observable", "anchors": ["Src/json.c:Json_addData"]}
{"id": "C68", "title": "What Json_findByKey returns", "statement": "Json_findByKey succeeds exactly when the first textual occurrence of key is followed by a quote, two further quotes follow and the text between them fits (with NUL) in the output; it then returns this text NUL-terminated.", "quantifier": "all buffers, keys, output sizes", "why_tests_cant": "all texts", "anchors": ["Src/json.c:Json_findByKey"]}
{"id": "C69", "title": "Lookup in a built document", "statement": "Looking up a key in a document produced by the builder returns its value (quote-free strings), provided the key text does not occur earlier in the document.", "quantifier": "all documents, keys, values", "why_tests_cant": "unbounded", "anchors": ["Src/json.c:Json_findByKey", "Src/json.c:Json_startString", "Src/json.c:Json_addData", "Src/json.c:Json_endString"]}
{"id": "C70", "title": "Lookup may return a wrong value", "statement": "Without the proviso the lookup is wrong: a key that is a suffix of an earlier key, or equals an earlier value, yields a wrong value; a key that is a proper prefix of an earlier key is not found.", "quantifier": "witness documents", "why_tests_cant": "the test-suite uses none of these", "anchors": ["Src/json.c:Json_findByKey"]}
{"id": "C71", "title": "Json_findByKey memory footprint", "statement": "Json_findByKey reads only buffer[0..buffer_size) and the key, writes only value[0..max_value_size), and terminates, for buffer_size < 2^32-1.", "quantifier": "all buffers, keys, sizes", "why_tests_cant": "UB is not observable", "anchors": ["Src/json.c:Json_findByKey"]}
{"id": "C72", "title": "Every function computes the CRC published under its name", "statement": "Each of the 45 functions, called once on a message (NULL last_crc_ptr, final_crc true), returns the checksum of the Rocksoft model with the parameters (width, polynomial, initial value, reflection, final xor) of the public CRC catalogue entry of that name.", "quantifier": "all 45 functions, all messages of any length", "why_tests_cant": "tests check one or two messages per variant", "anchors": ["Src/crc/crc8_variants", "Src/crc/crc16_variants", "Src/crc/crc32_variants", "Src/crc/crc8_base.c:Crc8Base", "Src/crc/crc16_base.c:Crc16Base", "Src/crc/crc32_base.c:Crc32Base"]}
{"id": "C73", "title": "A message followed by its checksum has a fixed CRC", "statement": "For each function, the CRC of a message with its own checksum appended (low byte first for reflected variants, high byte first otherwise) is a constant of the function (the residue), and no other continuation of the same length has that CRC; writing the checksum with the library's own serialisers behind the message gives such a frame.", "quantifier": "all 45 functions, all messages", "why_tests_cant": "quantifies over all messages and all continuations", "anchors": ["Src/crc/crc8_variants", "Src/crc/crc16_variants", "Src/crc/crc32_variants", "Src/crc/crc8_base.c:Crc8Base", "Src/crc/crc16_base.c:Crc16Base", "Src/crc/crc32_base.c:Crc32Base", "Src/utils.c:Utils_serialize32LE", "Src/utils.c:Utils_serialize32BE"]}
{"id": "C74", "title": "Which functions detect all errors in an odd number of bits", "statement": "31 of the functions (those whose divisor has an even number of terms) give different checksums for any two messages of the same length that differ in an odd number of bits; for the other 14 there are such messages with equal checksums.", "quantifier": "all 45 functions, all pairs of messages", "why_tests_cant": "unbounded messages, all error patterns", "anchors": ["Src/crc/crc8_variants", "Src/crc/crc16_variants", "Src/crc/crc32_variants", "Src/crc/crc8_base.c:Crc8Base", "Src/crc/crc16_base.c:Crc16Base", "Src/crc/crc32_base.c:Crc32Base"]}
{"id": "C75", "title": "Two flipped bits", "statement": "Two messages that differ in exactly two bits have equal checksums exactly when the distance of the bits is a multiple of the order of the function's polynomial; the orders are 17 (Crc8_darc) to 2^32-1 (Crc32).", "quantifier": "all 45 functions, all messages, all positions", "why_tests_cant": "error distances up to 2^32", "anchors": ["Src/crc/crc8_variants", "Src/crc/crc16_variants", "Src/crc/crc32_variants", "Src/crc/crc8_base.c:Crc8Base", "Src/crc/crc16_base.c:Crc16Base", "Src/crc/crc32_base.c:Crc32Base"]}
{"id": "C76", "title": "Guaranteed detection of few flipped bits", "statement": "In frames of at most T bits, T the order of the polynomial, every error of one or two bits changes the checksum, and every error of three bits too for the 31 functions with an even divisor; for every greater length there is an undetected error of two bits.", "quantifier": "all 45 functions, all frames, all error patterns", "why_tests_cant": "unbounded frames; sharpness of the bound", "anchors": ["Src/crc/crc8_variants", "Src/crc/crc16_variants", "Src/crc/crc32_variants", "Src/crc/crc8_base.c:Crc8Base", "Src/crc/crc16_base.c:Crc16Base", "Src/crc/crc32_base.c:Crc32Base"]}
{"id": "C77", "title": "A Vernam ciphertext says nothing about the message", "statement": "For every message of letters and every text of the same shape (length, case of each letter) exactly one key of capital letters encrypts the message to that text; so with a uniformly random key all messages of a shape are equally likely behind a ciphertext. Using a key twice gives away the distance of the two messages letter by letter.", "quantifier": "all messages, texts and keys", "why_tests_cant": "counting over all keys", "anchors": ["Src/crypto/vernam_cipher.c:VernamCipher_encrypt"]}
{"id": "C78", "title": "Caesar shifts add up", "statement": "Encrypting with shift j and then k is encrypting once with any shift congruent to j + k modulo 26; shifts congruent modulo 26 behave the same on every memory, others differ on every message with a letter.", "quantifier": "all messages and shifts", "why_tests_cant": "unbounded messages", "anchors": ["Src/crypto/caesar_cipher.c:CaesarCipher_encrypt"]}
{"id": "C79", "title": "Reusing a ChaCha20 key stream", "statement": "Two messages encrypted with equal key, nonce and counter: the xor of the ciphertexts is the xor of the messages; flipping bits of the input flips the same bits of the output and no others; the ciphertext of a prefix is a prefix of the ciphertext.", "quantifier": "all keys, nonces, counters, messages", "why_tests_cant": "relates unbounded families of calls", "anchors": ["Src/crypto/chacha20.c:Chacha20_crypt"]}
{"id": "C80", "title": "Decimal numerals are read as the values they denote", "statement": "Utils_stringToUint32 accepts a non-empty text as v exactly if it is the usual decimal numeral of v (as written by printf %u) behind any number of zeros and has at most ten characters; the numeral of every uint32 value is accepted; the empty text is accepted as 0.", "quantifier": "all texts, all 2^32 values", "why_tests_cant": "2^32 values, all texts", "anchors": ["Src/utils.c:Utils_stringToUint32"]}
{"id": "C81", "title": "The byte orders are mirror images; big-endian preserves the order", "statement": "The big-endian and little-endian serialisers leave mirrored bytes and reading with the other order gives the same byte-swapped value either way; comparing big-endian bytes from the first on (memcmp) compares the values, which is false for little-endian.", "quantifier": "all values and memories", "why_tests_cant": "all pairs of values", "anchors": ["Src/utils.c:Utils_serialize32BE", "Src/utils.c:Utils_serialize32LE", "Src/utils.c:Utils_deserialize32BE", "Src/utils.c:Utils_deserialize32LE"]}
{"id": "C82", "title": "A checksum is no authentication", "statement": "For each of the 45 functions, whatever surrounds them, as many consecutive bytes of a message as the checksum has can be chosen in exactly one way so that the function returns any given value; among all messages of a given length (at least that of the checksum) every checksum occurs equally often, so a random change goes undetected with probability exactly 2^-w.", "quantifier": "all 45 functions, all messages, positions and checksum values", "why_tests_cant": "counts over all messages", "anchors": ["Src/crc/crc8_variants", "Src/crc/crc16_variants", "Src/crc/crc32_variants", "Src/crc/crc8_base.c:Crc8Base", "Src/crc/crc16_base.c:Crc16Base", "Src/crc/crc32_base.c:Crc32Base"]}
{"id": "C83", "title": "The builder produces JSON", "statement": "For keys and values that are texts of the JSON grammar (RFC 8259 characters and escapes) the builder's text is a JSON text and has exactly one parse: the object of these members in order. For keys and values without quotation mark and reverse solidus the text is JSON exactly if they are UTF-8 without control characters.", "quantifier": "all lists of keys and values", "why_tests_cant": "unbounded, all parses", "anchors": ["Src/json.c:Json_startString", "Src/json.c:Json_addData", "Src/json.c:Json_endString"]}
{"id": "C84", "title": "The builder escapes nothing", "statement": "A value containing quotation marks can add members: the text is literally the document of other members; a value ending in a reverse solidus makes the document no JSON text at all.", "quantifier": "all documents, all injected members", "why_tests_cant": "all values", "anchors": ["Src/json.c:Json_startString", "Src/json.c:Json_addData", "Src/json.c:Json_endString"]}
{"id": "C85", "title": "An encrypted field travels through a JSON document", "statement": "Encrypting a message with Chacha20_crypt, encoding it with Base64_encode and adding it with the JSON builder under a name free of the characters { } \" : , succeeds; Json_findByKey, Base64_decode and Chacha20_crypt on any memory holding that text and the same key, nonce and counter restore the message if it has at least three bytes, and report failure otherwise.", "quantifier": "all messages, keys, nonces, counters, names, memories of sender and receiver", "why_tests_cant": "composes unbounded families of calls of three modules", "anchors": ["Src/crypto/chacha20.c:Chacha20_crypt", "Src/base64.c:Base64_encode", "Src/base64.c:Base64_decode", "Src/json.c:Json_findByKey", "Src/json.c:Json_startString", "Src/json.c:Json_addData", "Src/json.c:Json_endString"]}
{"id": "C86", "title": "The sorts need an order among the elements only", "statement": "If the comparator is a strict weak order among the elements of the array, whatever it answers on other bytes, each of the four sorts (insertion sort with element_size readable bytes before the array, heap sort with memory readable up to element index 2n) leaves a sorted permutation of the elements and changes no other byte; bubble and insertion sort keep the order of tied elements.", "quantifier": "all arrays, element sizes, comparators that are an order among the elements, contents of the memory around the array", "why_tests_cant": "heap sort and insertion sort hand the comparator bytes outside the array", "anchors": ["Src/sort/bubble_sort.c:BubbleSort_sort", "Src/sort/selection_sort.c:SelectionSort_sort", "Src/sort/insertion_sort.c:InsertionSort_sort", "Src/sort/heap_sort.c:HeapSort_sort"]}
{"id": "C87", "title": "The sorts put numbers into ascending order", "statement": "With CompareInt32, CompareUint64 and, if no element is a NaN, CompareFloat64 each of the four sorts leaves the numbers of the array in ascending numerical order (two's complement, unsigned, IEEE 754 value including infinities, subnormals and both zeros) and the integer results agree byte for byte. With NaNs it is false: an array of doubles in which of any two neighbours one is a NaN is left as it is by bubble sort.", "quantifier": "all arrays of numbers and contents of the memory around them", "why_tests_cant": "all numbers, unbounded arrays", "anchors": ["Tests/helper/sort_functions.c:CompareInt32", "Tests/helper/sort_functions.c:CompareFloat64", "Tests/helper/sort_functions.c:CompareUint64", "Src/sort/bubble_sort.c:BubbleSort_sort", "Src/sort/selection_sort.c:SelectionSort_sort", "Src/sort/insertion_sort.c:InsertionSort_sort", "Src/sort/heap_sort.c:HeapSort_sort"]}
{"id": "C88", "title": "Containers in one memory do not interfere", "statement": "Any number of queues, priority queues and maps whose buffers are different objects of one memory, operated on by any interleaving of valid calls: every call returns what the abstract container (FIFO, priority list, finite map) holding only the values put into it would return, whatever the calls on the others; two runs, possibly with different neighbours, making the same requests with the same argument bytes to a container observe the same answers from it. No call of such a history is undefined.", "quantifier": "all collections of containers, layouts, interleavings of any length", "why_tests_cant": "unbounded interleavings over several instances", "anchors": ["Src/queue.c:Queue_enqueue", "Src/queue.c:Queue_dequeue", "Src/priority_queue.c:PriorityQueue_enqueue", "Src/priority_queue.c:PriorityQueue_dequeue", "Src/map.c:Map_insert", "Src/map.c:Map_getValue"]}
{"id": "C89", "title": "Checksums of parts determine the checksum of the whole", "statement": "For each of the 45 functions the checksum of a concatenation is computed from the checksums of the two parts and the length of the second (so parts may be processed in parallel); exchanging a part for another with the same checksum (the second one: of the same length) leaves the checksum of the whole; messages with the same end have equal checksums only if the parts before it have.", "quantifier": "all 45 functions, all pairs of messages", "why_tests_cant": "unbounded messages", "anchors": ["Src/crc/crc8_variants", "Src/crc/crc16_variants", "Src/crc/crc32_variants", "Src/crc/crc8_base.c:Crc8Base", "Src/crc/crc16_base.c:Crc16Base", "Src/crc/crc32_base.c:Crc32Base"]}
{"id": "C90", "title": "Bursts longer than the checksum", "statement": "Among the bursts of w+1 bits (first and last bit wrong, anything between) at a given place exactly one goes undetected, the one with the pattern of the divisor; among the 2^(L-2) bursts of L >= w+2 bits at a given place exactly 2^(L-2-w) go undetected, a fraction of 2^-w.", "quantifier": "all 45 functions, messages, places and burst lengths", "why_tests_cant": "counts over all bursts", "anchors": ["Src/crc/crc8_variants", "Src/crc/crc16_variants", "Src/crc/crc32_variants", "Src/crc/crc8_base.c:Crc8Base", "Src/crc/crc16_base.c:Crc16Base", "Src/crc/crc32_base.c:Crc32Base"]}
{"id": "C91", "title": "No two CRC functions are the same", "statement": "Any two of the functions of a width return different checksums on the one-byte message 02; functions with the same polynomial and reflection differ by a value that depends only on the length of the message.", "quantifier": "all pairs of functions, all messages", "why_tests_cant": "all pairs", "anchors": ["Src/crc/crc8_variants", "Src/crc/crc16_variants", "Src/crc/crc32_variants", "Src/crc/crc8_base.c:Crc8Base", "Src/crc/crc16_base.c:Crc16Base", "Src/crc/crc32_base.c:Crc32Base"]}
{"id": "C92", "title": "A queue between a producer and a consumer that interrupt each other", "statement": "If one caller only enqueues and another only dequeues, their accesses to the structure and the buffer happen one after the other in any interleaving (down to single bytes of the copies), and queue->size is incremented and decremented in one step, then nothing undefined happens and the history of calls and answers is linearizable to the bounded FIFO: each call takes effect at one instant between its start and its answer; at any time the elements delivered are a prefix of those accepted. No caller ever waits: a call ends after at most element_size + 8 steps of its own. A call that is not interrupted is the call of the sequential model.", "quantifier": "all capacities, element sizes, contents, numbers of calls, all interleavings", "why_tests_cant": "interleavings cannot be enumerated by tests", "anchors": ["Src/queue.c:Queue_enqueue", "Src/queue.c:Queue_dequeue"]}
{"id": "C93", "title": "Where the queue needs a lock", "statement": "If the update of queue->size is a load followed by a store, an interrupt handler dequeuing in between makes the queue deliver an element twice (no order of the calls explains the answers), and a handler enqueuing while the main program dequeues makes an accepted element vanish; with two producers (or two consumers) the same happens even if the update is one step.", "quantifier": "exhibited interleavings", "why_tests_cant": "the window is a few instructions wide", "anchors": ["Src/queue.c:Queue_enqueue", "Src/queue.c:Queue_dequeue"]}
{"id": "C94", "title": "Comparison functions with effects", "statement": "A comparison function may read any memory and write to other objects (counters, logs, caches), relying on what it keeps true of them, as long as its answer depends on the bytes of the two elements alone: with a strict weak order each of the four sorts (insertion sort with element_size readable bytes before the array, heap sort with memory readable up to element index 2n) still leaves a sorted permutation, the same bytes as with an effect-free comparison function, and apart from the objects the function writes to (and insertion sort's static buffer) changes nothing outside the array.", "quantifier": "all arrays, element sizes, memories, all comparison functions of this kind", "why_tests_cant": "quantifies over arbitrary callbacks", "anchors": ["Src/sort/bubble_sort.c:BubbleSort_sort", "Src/sort/selection_sort.c:SelectionSort_sort", "Src/sort/insertion_sort.c:InsertionSort_sort", "Src/sort/heap_sort.c:HeapSort_sort"]}
{"id": "C95", "title": "The number of comparisons", "statement": "Sorting n elements, bubble sort calls the comparison function between n-1 and n(n-1)/2 times and exactly n-1 times if no neighbouring pair is in the wrong order; selection sort exactly n(n-1)/2 times; insertion sort between n-1 and n(n+1)/2-1 times and exactly n-1 times if no neighbouring pair is in the wrong order; heap sort at least 2(n/2+n) and at most 2(n/2+n)(floor(log2 n)+1) times, so at most 3n(floor(log2 n)+1). All of this whatever the comparison function answers.", "quantifier": "all arrays, element sizes, comparison functions", "why_tests_cant": "bounds for all lengths", "anchors": ["Src/sort/bubble_sort.c:BubbleSort_sort", "Src/sort/selection_sort.c:SelectionSort_sort", "Src/sort/insertion_sort.c:InsertionSort_sort", "Src/sort/heap_sort.c:HeapSort_sort"]}
{"id": "C96", "title": "ChaCha20 is constant-time", "statement": "Which addresses Chacha20_crypt reads and writes and how it branches, in order, depends only on its pointers and the length: not on the key, the nonce, the counter or the text. (An observer who sees addresses, table indices and decisions, but no values; the compiler is assumed to keep the accesses and branches of the C text.)", "quantifier": "all keys, nonces, counters, texts, lengths, layouts", "why_tests_cant": "a statement on all pairs of runs", "anchors": ["Src/crypto/chacha20.c:Chacha20_crypt"]}
{"id": "C97", "title": "Base64_encode and the CRC functions show their data", "statement": "The table indices that Base64_encode looks up are the 6-bit digits of the data, in order; the indices that a CRC function looks up determine its whole message, whatever the table, the initial value and the reflections. An observer of the lookups (the cache) learns all of the data; ChaCha20 output may be encoded that way, keys should not.", "quantifier": "all data, lengths, layouts, all tables", "why_tests_cant": "a statement on all pairs of runs", "anchors": ["Src/base64.c:Base64_encode", "Src/crc/crc8_base.c:Crc8Base", "Src/crc/crc16_base.c:Crc16Base", "Src/crc/crc32_base.c:Crc32Base"]}
{"id": "C98", "title": "What the Vernam cipher shows", "statement": "What an observer of addresses and decisions sees of VernamCipher_encrypt depends only on the kinds of the characters (capital letter, small letter, or which other range) of message and key. Of VernamCipher_decrypt it sees in addition, for every letter of the message, whether it comes before the letter of the key in the alphabet: for messages and keys of letters of the same kinds two observations are equal exactly if these comparisons agree.", "quantifier": "all messages and keys", "why_tests_cant": "a statement on all pairs of runs", "anchors": ["Src/crypto/vernam_cipher.c:VernamCipher_encrypt", "Src/crypto/vernam_cipher.c:VernamCipher_decrypt"]}
{"id": "C99", "title": "Base64 on targets with a 32-bit size_t", "statement": "Where size_t has 32 bits Base64_decode returns and writes the same as where it has 64 bits, for all arguments; Base64_encode too if the text length 4*ceil(n/3) is below 2^32 (the arithmetic on lengths never wraps then), and for longer data it returns 1 without accessing anything: its overflow check is exact. So the round trip holds there as well.", "quantifier": "all lengths, limits, memories", "why_tests_cant": "needs data of gigabytes on a 32-bit target", "anchors": ["Src/base64.c:Base64_encode", "Src/base64.c:Base64_decode"]}
{"id": "C100", "title": "JSON on targets with a 32-bit size_t", "statement": "Where size_t has 32 bits (no object of 2^32 bytes) Json_startString and Json_findByKey do the same as where it has 64 bits, Json_endString too unless the text has 2^32 - 2 characters, and Json_addData too if the objects of buffer, key and value together have less than 2^32 - 4 bytes. Without that it is false: if the length of the new text reaches 2^32 the sum in the size check wraps and the key is copied past the end of the buffer; one string of 2^31 - 3 characters passed both as key and as value does it; and Json_endString behind a text of 2^32 - 2 characters, the longest possible, writes past the end of the buffer whatever size is stated.", "quantifier": "all memories, buffers, keys, values", "why_tests_cant": "needs strings of gigabytes on a 32-bit target", "anchors": ["Src/json.c:Json_findByKey", "Src/json.c:Json_startString", "Src/json.c:Json_addData", "Src/json.c:Json_endString"]}
{"id": "C101", "title": "Other Base64 alphabets, missing padding, equal texts", "statement": "Base64_decode restores data of at least three bytes from their text also in the alphabets with - and _ (base64url), with , for / (IMAP) or . for +, with or without padding. Two texts that are decoded give the same bytes exactly if the values of their characters agree, except that the unused bits of an incomplete last group do not matter; a character outside the alphabets, a line break for instance, counts as A.", "quantifier": "all data, texts, memories, limits", "why_tests_cant": "all texts", "anchors": ["Src/base64.c:Base64_decode"]}
{"id": "C102", "title": "Priority queue storage above 4 GiB aliases", "statement": "If (capacity-1)*element_size >= 2^32 there is a history of valid calls on arrays that are large enough which is undefined or delivers an element that the ideal priority queue would not: the 32-bit offset wraps, so the limit of the refinement property is necessary.", "quantifier": "all capacities and element sizes above the limit, all layouts", "why_tests_cant": "needs gigabytes of memory", "anchors": ["Src/priority_queue.c:PriorityQueue_enqueue", "Src/priority_queue.c:PriorityQueue_dequeue"]}
{"id": "C103", "title": "The sorts at the ends of the ranges of their arguments", "statement": "If (n-1)*element_size >= 2^31 each of the four sorts is undefined, whatever the memory and the comparison function, so the limit of the sorting properties is necessary. With a number of elements of one or less (down to -2^31+1) bubble, selection and insertion sort access nothing, heap sort with zero or less; for -2^31 insertion sort accesses nothing and the others overflow.", "quantifier": "all memories, element sizes, comparison functions", "why_tests_cant": "needs gigabytes of memory; all memories", "anchors": ["Src/sort/bubble_sort.c:BubbleSort_sort", "Src/sort/selection_sort.c:SelectionSort_sort", "Src/sort/insertion_sort.c:InsertionSort_sort", "Src/sort/heap_sort.c:HeapSort_sort"]}
{"id": "C104", "title": "Enqueueing an entry out of the container's own storage", "statement": "Queue_enqueue with a pointer to an element in the queue's own buffer appends a copy of it and the queue stays the FIFO; with a pointer to the free place it is about to fill the copy overlaps itself. PriorityQueue_enqueue depends only on the value of the priority if the pointer leads outside the queue's own priority array or the queue has room. Its own entry is appended faithfully with room left and, in a full queue, if it was stored before the evicted entry; behind the evicted one its successor is enqueued instead (element and priority), and for the last entry the copy overlaps itself.", "quantifier": "all reachable states, entries, later histories", "why_tests_cant": "all states; the wrong entry is stored silently", "anchors": ["Src/queue.c:Queue_enqueue", "Src/priority_queue.c:PriorityQueue_enqueue"]}
{"id": "C105", "title": "How far the guaranteed detection of errors reaches", "statement": "For each polynomial in use there is a length n_k in bits such that every error in at most k bits changes the checksum of frames (message and checksum) of up to n_k bits, and in every longer frame some such error goes undetected. The table of these lengths: for every k for the seven 8-bit and the seven 16-bit polynomials, for k = 2 to 5 for the 32-bit ones (0xA833982B: k = 2 to 4). For CRC-32 (0x04C11DB7): three bits up to 91639 bits, four up to 3006, five up to 300; for CRC-32C (0x1EDC6F41): five up to 5275. The lengths do not depend on initial value, final xor or reflection.", "quantifier": "all 45 functions, all frames and error patterns of these weights", "why_tests_cant": "2^31 error patterns of weight three alone", "anchors": ["Src/crc/crc8_variants", "Src/crc/crc16_variants", "Src/crc/crc32_variants", "Src/crc/crc8_base.c:Crc8Base", "Src/crc/crc16_base.c:Crc16Base", "Src/crc/crc32_base.c:Crc32Base"]}
{"id": "C106", "title": "Sorting inside a comparison function", "statement": "A comparison function may itself sort another array with any of the four sorts: the outer sort still leaves a sorted permutation and touches nothing else - unless both are InsertionSort_sort. Its static buffer is shared by all calls: if the comparison function calls InsertionSort_sort on an array of at least two elements (at least as long as those of the outer array), the outer call returns normally but has lost every element except the first; elements of the other array stand in their places. More generally whatever the comparison function (or an interrupt in it) leaves in the static buffer replaces the elements. After every call with n >= 2 the buffer keeps the element that was the last of the array.", "quantifier": "all pairs of sorts, arrays, element sizes, comparison functions", "why_tests_cant": "quantifies over callbacks; the loss is silent", "anchors": ["Src/sort/bubble_sort.c:BubbleSort_sort", "Src/sort/selection_sort.c:SelectionSort_sort", "Src/sort/insertion_sort.c:InsertionSort_sort", "Src/sort/heap_sort.c:HeapSort_sort"]}
{"id": "C107", "title": "Zero bytes gained or lost at the ends", "statement": "Zero bytes in front of a message: each function has a number k such that n zero bytes added (or lost) there leave the checksum as it is exactly if k divides n, whatever the message. Behind a frame (message with its checksum): each function has a number k' such that the frame with n zero bytes behind it passes the residue check exactly if k' divides n. Both numbers are 1 (zero bytes are never noticed) where the initial value, respectively the final xor value, is 0; otherwise they are 127 to 2^32-1, see the table. Only nine functions notice zero bytes at both ends. A frame of zero bytes only (dead line) passes always if both values are 0, never if just one of them is, and otherwise exactly if its length exceeds that of the checksum by a multiple of k.", "quantifier": "all 45 functions, all messages, all numbers of zero bytes", "why_tests_cant": "periods up to 2^32-1, all messages", "anchors": ["Src/crc/crc8_variants", "Src/crc/crc16_variants", "Src/crc/crc32_variants", "Src/crc/crc8_base.c:Crc8Base", "Src/crc/crc16_base.c:Crc16Base", "Src/crc/crc32_base.c:Crc32Base"]}
{"id": "C108", "title": "Overlapping source and destination", "statement": "The big-endian blob functions copy correctly between overlapping ranges if the destination does not start behind the source (in place included), and otherwise repeat the bytes in front of the destination periodically; the little-endian ones leave those bytes of the destination as they were whose source was overwritten before, so that reversing in place makes the range the mirror image of its second half, which is the reversed range only for palindromes. Utils_swapElements on overlapping ranges at a distance of d bytes moves the lower range onto the upper one correctly, and fills the first d bytes with the last d bytes, turned round. No other byte changes in any case.", "quantifier": "all ranges, sizes, contents", "why_tests_cant": "all overlaps", "anchors": ["Src/utils.c:Utils_serializeBlobBE", "Src/utils.c:Utils_deserializeBlobBE", "Src/utils.c:Utils_serializeBlobLE", "Src/utils.c:Utils_deserializeBlobLE", "Src/utils.c:Utils_swapElements"]}
{"id": "C109", "title": "Where the priority queue needs a lock", "statement": "A priority queue call interrupted by another whole call (an interrupt handler). Harmless: right after the check at the start if its answer stays the same; an enqueue during a dequeue before size is read or after the loop, with room left. Otherwise both calls report success but the queue is wrong, exactly so: an enqueue met by a dequeue loses the new element or stores the last entry twice; an enqueue met by an enqueue loses the first element and, before size is read, adds an entry nobody enqueued; a dequeue met by an enqueue loses the new element (within the update of size) or loses the last entry and stores the new one twice (before the loop); a dequeue met by a dequeue delivers an element twice and drops another, or delivers one that is not of highest priority. An enqueue into the last place met by an enqueue, an evicting enqueue met by an enqueue and a dequeue of the only entry met by a dequeue run out of the arrays.", "quantifier": "all reachable states, contents, priorities, points of interruption named", "why_tests_cant": "the windows are a few instructions wide", "anchors": ["Src/priority_queue.c:PriorityQueue_enqueue", "Src/priority_queue.c:PriorityQueue_dequeue"]}
{"id": "C110", "title": "Tasks that call the scheduler", "statement": "Task functions may add tasks to the table that is being run, any number and even themselves: the run calls the additions as well; afterwards the table holds the tasks it held before followed by the additions of the active ones in turn, cut off at n slots, each active one of them having been called exactly once in that order. So a run always ends, after at most n calls; if every function adds an active task, the first run fills the table; with a full table nothing is added and every run calls the same tasks. A task in slot i that empties the table with Scheduler_init and adds new tasks goes on behind slot i: the first i+1 new tasks wait for the next run.", "quantifier": "all tables, task functions of this kind, numbers of additions", "why_tests_cant": "unbounded families of callbacks", "anchors": ["Src/scheduler.c:Scheduler_run", "Src/scheduler.c:Scheduler_addTask", "Src/scheduler.c:Scheduler_init"]}
{"id": "C111", "title": "Where the map needs a lock", "statement": "A map call interrupted by another whole call (an interrupt handler), at any point of the search, the check for room, the copies (any bytes copied so far) or the increment. A lookup during the insertion of a new key sees the map as before it, so new entries appear all at once; the update of another key during the insertion of a new key, and any insertion during a lookup or an update of another key, take place as if one after the other. Exceptions, exactly so: a lookup during an update of the same key (or the other way round) gets a value mixed out of the old and the new one, and two updates of one key leave a mixed value. Two insertions of new keys, both reported successful, go wrong: the same key stands in the map twice, or a key mixed out of the two gets one value and left-over bytes get the other, or left-over bytes become an entry, or one entry is lost; with one place left the interrupted call writes behind the arrays or leaves more entries than places, so that looking up an absent key reads behind the keys.", "quantifier": "all reachable states, keys, values, points of interruption and sets of copied bytes", "why_tests_cant": "the windows are a few instructions wide", "anchors": ["Src/map.c:Map_insert", "Src/map.c:Map_getValue"]}
{"id": "C112", "title": "Overlapping arguments of the text functions", "statement": "(1) Json_findByKey may write the value into the very buffer it searches, and the key may be anywhere: a value that fits is delivered unless the output starts inside the value's text behind its first character, or at its closing quote; there it returns false and fills the output with the bytes in front of it over and over. In particular the output may be the buffer itself. (2) Json_addData with a key or a value that points into the buffer's own text is refused if the addition does not fit, as any other, and is undefined behaviour if it fits. (3) Base64_encode is defined wherever data and text lie; with both in one object and enough room, the text is right for all contents if and only if the text starts behind the data, or the data start at least as many bytes behind the text as there are groups of three; encoding in place is wrong.", "quantifier": "all buffers, texts, keys, values, data, lengths and positions within one object", "why_tests_cant": "all relative positions of the arguments; whether a wrong byte shows depends on the contents", "anchors": ["Src/json.c:Json_findByKey", "Src/json.c:Json_addData", "Src/base64.c:Base64_encode"]}
{"id": "C113", "title": "Nearly sorted arrays take few comparisons", "statement": "For a strict weak order, with a(k) the number of elements in front of place k that are greater than the element at place k: insertion sort calls the comparison function exactly n-1 + a(0)+...+a(n-1) times, that is once for every element but the first and once for every pair in the wrong order; bubble sort exactly (n-1)+(n-2)+...+(n-1-L) times, L being the greatest a(k). So both make at most (d+1)(n-1) calls if no a(k) exceeds d, n-1 for sorted arrays, and the upper bounds n(n+1)/2-1 and n(n-1)/2 for arrays in reverse order, for every n.", "quantifier": "all arrays, element sizes, strict weak orders", "why_tests_cant": "exact numbers for all lengths and contents", "anchors": ["Src/sort/bubble_sort.c:BubbleSort_sort", "Src/sort/selection_sort.c:SelectionSort_sort", "Src/sort/insertion_sort.c:InsertionSort_sort", "Src/sort/heap_sort.c:HeapSort_sort"]}
{"id": "C114", "title": "Arguments out of the map's own arrays", "statement": "Map_insert and Map_getValue with pointers anywhere, also into the map's own arrays or over one another. Inserting a present key: undefined if the value overlaps the stored value of that key (so re-inserting an entry's own value under its key is), otherwise the same as with a copy of the bytes; so an entry's value may be stored under another key, and an entry's own key may be used to update it. Inserting a new key with room left: undefined if the key overlaps the place behind the last key or the value the place behind the last value, otherwise the same as with a copy, except that those bytes of the value that lie in the place of the new key are stored as bytes of the key. A full map refuses. A lookup is undefined if the destination overlaps the value found; a destination away from the entries in use, even over the key looked up, gets the value and the map stays as it is; another entry's value as destination is overwritten as by an insertion. In every defined case all later calls are those of the ideal map.", "quantifier": "all reachable states, keys, values, positions of the arguments, later histories", "why_tests_cant": "all relative positions; the comments in the source claim that overlap cannot happen", "anchors": ["Src/map.c:Map_insert", "Src/map.c:Map_getValue"]}
{"id": "C115", "title": "Where the scheduler needs a lock", "statement": "Scheduler calls interrupted by handlers that use the same task table. Scheduler_addTask interrupted any number of times by handlers that add tasks, except between finding the free slot and storing the function: as if all tasks were added one after the other. Exactly there the handler's first task is lost although its addition was reported successful: the table is as if it had never been added. A handler that runs the tasks does not disturb an addition; it calls the new function between the two stores if and only if the active member of the free slot happens to be set, whatever the new task's (not after Scheduler_init). Scheduler_run interrupted by handlers that add tasks calls each active task it started with once, in order, and added ones at most once; a task added later may run before one added earlier. A handler that calls Scheduler_init during a run makes the run call a null pointer if it comes after active was read, and else ends it.", "quantifier": "all tables, tasks, handlers of these kinds, points of interruption", "why_tests_cant": "the windows are a few instructions wide", "anchors": ["Src/scheduler.c:Scheduler_addTask", "Src/scheduler.c:Scheduler_run", "Src/scheduler.c:Scheduler_init"]}
{"id": "C116", "title": "Elements delivered into the container's own buffer", "statement": "Queue_dequeue, Queue_front and Queue_rear with a destination anywhere are undefined if it overlaps the place of the delivered element; otherwise the element is found there, no other byte changes, and the queue goes on with the elements as they then lie in its buffer: none is harmed if the destination meets none of them (free places of the ring included), and delivered over the place of another element it replaces that one and is delivered a second time. Queue_enqueue with an element that overlaps the free place it is copied to is undefined, otherwise exactly its bytes are appended. PriorityQueue_dequeue likewise, but delivered over the place of a newer entry, that entry carries the element under its own priority and moves down, so the caller finds at the destination the element of the entry behind it (the delivered one only if it was the last).", "quantifier": "all reachable states, all destinations and sources", "why_tests_cant": "all overlaps in all states", "anchors": ["Src/queue.c:Queue_enqueue", "Src/queue.c:Queue_dequeue", "Src/queue.c:Queue_front", "Src/queue.c:Queue_rear", "Src/priority_queue.c:PriorityQueue_dequeue"]}
{"id": "C117", "title": "Overlapping arguments of the ciphers", "statement": "Chacha20_crypt is defined for any overlap of message, key, nonce and result, changes only the result, and byte i of the result is the message byte found when the first i result bytes are written, combined with the RFC 8439 key stream under the key and nonce found when the blocks before that of byte i are written. Hence each byte is the right one until its message byte is written over or an earlier block has reached the key or nonce; up to 64 bytes the key and the nonce may lie anywhere in the result; a result that begins d > 0 bytes behind the message's beginning loses the message from byte d on; with the key inside the result the blocks after it are encrypted under result bytes and can be read from the result alone. VernamCipher_encrypt and VernamCipher_decrypt use for letter i the key letter found when the first i characters are done: a message that is its own key is doubled by encryption and turned into As by decryption (so the round trip restores it only if it consists of As), and with a key that begins d > 0 bytes in front of the message and reaches into it the cipher text is the ordinary one under the first d key letters followed by the cipher text, and decryption in the same position restores the message exactly if encryption had left all but the last d characters unchanged.", "quantifier": "all positions of all arguments, all lengths and contents", "why_tests_cant": "all overlaps, all contents", "anchors": ["Src/crypto/chacha20.c:Chacha20_crypt", "Src/crypto/vernam_cipher.c:VernamCipher_encrypt", "Src/crypto/vernam_cipher.c:VernamCipher_decrypt"]}
{"id": "C118", "title": "Targets with another width of int", "statement": "Where int has w >= 16 bits instead of 32: BitManipulation_reflect, the CRC base functions and the generators of the 8- and 16-bit tables (w = 16 or w >= 32), the 16-bit serialisers and deserialisers, Utils_stringToUint32 and CaesarCipher_encrypt do exactly the same. CaesarCipher_decrypt does not: a letter whose place in the alphabet is below the shift comes out 2^w modulo 26 places beyond the right one, which is never 0, so that on every target decryption restores the message exactly if no letter was moved past the end of the alphabet; two targets decrypt all messages alike exactly if their widths agree modulo 12 (16 and 64 bits do, 16 and 32 do not).", "quantifier": "all widths, arguments, memories", "why_tests_cant": "the tests run on one target", "anchors": ["Src/crypto/caesar_cipher.c:CaesarCipher_encrypt", "Src/crypto/caesar_cipher.c:CaesarCipher_decrypt", "Src/crc/crc8_base.c:Crc8Base", "Src/crc/crc16_base.c:Crc16Base", "Src/crc/crc32_base.c:Crc32Base", "Src/utils.c:Utils_stringToUint32", "Src/bit_manipulation.c:BitManipulation_reflect"]}
{"id": "C119", "title": "The number of exchanges of the sorts", "statement": "For a comparator that is a strict weak order, bubble sort exchanges two elements exactly once for every pair in the wrong order; selection sort exchanges never more often than that and makes no exchange exactly if the array is sorted; insertion sort copies an element exactly twice for every element but the first and once for every pair in the wrong order. Whatever the comparator, selection sort makes at most n - 1 exchanges, insertion sort one copy per comparison and n - 1 more, and heap sort at least n exchanges, also of a sorted array, at most n + (n/2 + n) * floor(log2 n), and exactly two comparisons per exchange and 2 (n/2) more.", "quantifier": "all arrays, element sizes, comparators", "why_tests_cant": "the numbers of moves over unboundedly many arrays; tests see the sorted result only", "anchors": ["Src/sort/bubble_sort.c:BubbleSort_sort", "Src/sort/selection_sort.c:SelectionSort_sort", "Src/sort/insertion_sort.c:InsertionSort_sort", "Src/sort/heap_sort.c:HeapSort_sort"]}
{"id": "C120", "title": "Two bytes that change places", "statement": "If two bytes of a message are changed by the same mask, in particular if two different bytes change places, whether the checksum notices depends only on the polynomial, the mask and the distance of the two bytes, not on the rest of the message: each polynomial has a distance k such that the change goes unnoticed exactly if k divides the distance of the bytes. For the 16-bit and 32-bit functions k is the same for every mask (127 to 2^32-1, see the table), so they notice every exchange of two bytes in a message of at most k bytes, and always that of neighbouring bytes. For the 8-bit functions k is 17 to 255 with exceptions for some masks; the eight of them whose divisor is even do not notice the exchange of neighbouring bytes for exactly one difference of the two bytes (0xFD for Crc8, for example), the others always notice it.", "quantifier": "all 45 functions, all messages, all pairs of bytes and distances", "why_tests_cant": "distances up to 2^32-1, all messages", "anchors": ["Src/crc/crc8_variants", "Src/crc/crc16_variants", "Src/crc/crc32_variants", "Src/crc/crc8_base.c:Crc8Base", "Src/crc/crc16_base.c:Crc16Base", "Src/crc/crc32_base.c:Crc32Base"]}
{"id": "C121", "title": "JSON lookup in buffers of 4 GiB and more", "statement": "Json_findByKey with a buffer_size of N >= 2^32 (64-bit size_t): the key is found only if it occurs among the first (N - key length) mod 2^32 positions; otherwise the result is false and nothing is written. If it is found there, its value is sought in a circle over the first 2^32 bytes: the value is the right one if both of its quotes lie within them; if no quote follows the key within them, the text between the first two quotes of the buffer (the name of the first member) is returned as the value; if even the key's closing quote lies behind them and there is no quote in them, the call never returns. With N = 2^32 - 1 everything is as in smaller buffers, except that if no quote follows the key the beginning of the buffer up to its first quote is returned as the value.", "quantifier": "all contents, keys, sizes from 2^32-1 on", "why_tests_cant": "4 GiB buffers", "anchors": ["Src/json.c:Json_findByKey"]}
{"id": "C122", "title": "Base64 and JSON on targets with a 16-bit size_t", "statement": "Where size_t and int have 16 bits (AVR, MSP430) Base64_decode returns and writes the same as where they have 64 and 32, for all arguments; Base64_encode too if the text length 4*ceil(n/3) is below 2^16, and for longer data it returns 1 without accessing anything; the round trip holds. The functions of json.c do the same too, Json_addData if the objects of buffer, key and value together have less than 2^16 - 4 bytes, Json_endString unless the text has 2^16 - 2 characters. Without that it is false: if the length of the new text reaches 2^16 the size check of Json_addData wraps and the key is copied past the end of the buffer (one string of 32765 characters as key and value does it), and behind a text of 2^16 - 2 characters Json_endString writes past the end whatever size is stated.", "quantifier": "all lengths, limits, memories, buffers, keys, values", "why_tests_cant": "the tests run on a 64-bit host", "anchors": ["Src/base64.c:Base64_encode", "Src/base64.c:Base64_decode", "Src/json.c:Json_findByKey", "Src/json.c:Json_startString", "Src/json.c:Json_addData", "Src/json.c:Json_endString"]}
{"id": "C123", "title": "Emptying, overload and waiting in the priority queue", "statement": "(1) Dequeueing until the queue is empty delivers what was stored in descending order of priority, equal priorities in the order of arrival. (2) However many elements are enqueued while none is taken, the priorities stored are the greatest of all offered or stored before, as many as there are places, in the order of arrival; of the elements above the lowest stored priority none was dropped. So filling a fresh queue with any number of elements and emptying it delivers the capacity-many greatest priorities in descending order. (3) A stored element with b entries before it in the order of delivery, a of them of strictly higher priority: the first a dequeues do not deliver it, and once there have been more dequeues than b plus the number of elements of higher priority offered meanwhile, it has been delivered or evicted. (4) Without a limit on those there is none on the waiting: if one element of higher priority arrives before every dequeue, the stored ones stay for ever.", "quantifier": "all reachable states, histories, priorities, capacities", "why_tests_cant": "unbounded histories", "anchors": ["Src/priority_queue.c:PriorityQueue_enqueue", "Src/priority_queue.c:PriorityQueue_dequeue"]}
{"id": "C124", "title": "Base64 in pieces, and wrong characters in a text", "statement": "(1) Encoding data in two calls, the second one with the rest of the data and the end of the first text, leaves both texts one behind the other; this is the text of the whole data exactly if the data was cut at a multiple of three bytes or nothing was left. (2) Decoding a text in two calls, cut at a multiple of four characters without padding in front of the cut, gives the bytes of the whole text, unless the rest is refused, which it is exactly if it is shorter than a group or a single padded group (although the whole text is decoded). (3) Byte k of the decoded data depends only on the characters 4k/3 and 4k/3+1 (rounded down) and on where padding stands; so one wrong character j (neither it nor the right one being =) damages at most the bytes 6j/8 and (6j+5)/8, also of a ChaCha20 message that is decrypted afterwards; character j of an encoded text depends only on these two bytes.", "quantifier": "all data, texts, cuts, memories", "why_tests_cant": "all pairs of texts, all cuts", "anchors": ["Src/base64.c:Base64_encode", "Src/base64.c:Base64_decode", "Src/crypto/chacha20.c:Chacha20_crypt"]}
{"id": "C125", "title": "The sorts rearrange by comparisons only", "statement": "Two runs of the same sort on arrays of equally many elements, of any element sizes, in any memories and with any two comparison functions (order or not), that answer alike for elements at the same places, move their elements in the same way: one permutation of the places leads from both arrays to both results. So the bytes of the elements matter only through the answers; sorting records by a key and then taking the keys is the same as taking the keys and sorting them; and sorting the original indices tells where every record goes.", "quantifier": "all arrays, element sizes, comparison functions, pairs of runs", "why_tests_cant": "relates all pairs of runs", "anchors": ["Src/sort/bubble_sort.c:BubbleSort_sort", "Src/sort/selection_sort.c:SelectionSort_sort", "Src/sort/insertion_sort.c:InsertionSort_sort", "Src/sort/heap_sort.c:HeapSort_sort"]}
{"id": "C126", "title": "Sorting by several keys in turn", "statement": "An array sorted several times in turn by different keys (strict weak orders), the least significant key first, with bubble or insertion sort in any mixture, ends sorted by all keys, the last one being the most significant; elements that tie in every key keep their original order; it is the same array as after one stable sort with the combined comparison function. The first pass may be any of the four sorts if the order of complete ties does not matter. With selection or heap sort as a later pass it is false.", "quantifier": "all arrays, element sizes, numbers of passes, orders", "why_tests_cant": "unboundedly many passes and arrays", "anchors": ["Src/sort/bubble_sort.c:BubbleSort_sort", "Src/sort/selection_sort.c:SelectionSort_sort", "Src/sort/insertion_sort.c:InsertionSort_sort", "Src/sort/heap_sort.c:HeapSort_sort"]}
{"id": "C127", "title": "The priority queue as a FIFO and as a stack", "statement": "If no element is offered with a priority above that of an earlier one, the priority queue answers every call as the FIFO with its capacity; with one and the same priority for all elements it gives the same answers as a Queue of the same capacity to the same calls. If every element is offered with a priority above all earlier ones (a running count, as long as it does not wrap), it is a stack: a dequeue delivers the newest element, an enqueue is never refused and drops the oldest element of a full queue.", "quantifier": "all reachable states, histories, capacities, element sizes, priorities", "why_tests_cant": "unbounded histories; relates two modules", "anchors": ["Src/priority_queue.c:PriorityQueue_enqueue", "Src/priority_queue.c:PriorityQueue_dequeue", "Src/queue.c:Queue_enqueue", "Src/queue.c:Queue_dequeue"]}
{"id": "C128", "title": "An encrypted checksum is no authentication either", "statement": "A frame (message with its checksum) encrypted with Chacha20_crypt, changed on the way by exclusive or with any bytes d, and decrypted by the receiver: the receiver gets the frame changed by d, and its residue check passes exactly if the plain remainder of d (initial value and final xor 0) is zero - whatever the key, the nonce and the message. For every change of the message there is exactly one change of the checksum's place with which it passes, namely the difference of the checksums of any two messages that differ by it. So encryption neither helps nor hurts the detection of errors, and who knows the format but not the key can change the message at will.", "quantifier": "all 45 functions, all frames, keys, nonces, counters, changes", "why_tests_cant": "all changes, keys and messages", "anchors": ["Src/crypto/chacha20.c:Chacha20_crypt", "Src/crc/crc8_variants", "Src/crc/crc16_variants", "Src/crc/crc32_variants"]}
{"id": "C129", "title": "Putting back a saved structure", "statement": "A caller copies the structure of a container, works on, and assigns the copy back to undo the work. Queue: the queue put back holds its old elements, except that those accepted since were written round the ring from the place behind its newest element on; so the undo is complete after any reading and removing and after at most as many accepted elements as there were free places, and with more (up to one round) the surplus elements stand ahead of the surviving ones in place of its oldest. Priority queue: enqueueing into free places is undone; if at least as many entries are stored as before it holds the oldest of the present ones; after dequeues it holds the remaining entries followed by copies of old ones ending in its newest, so one dequeue is undone (as a collection) only if the delivered entry equals the newest. Map: it holds exactly its old keys in the old order with their present values. In each case it goes on as the ideal container with that content.", "quantifier": "all capacities, element sizes, contents, histories before and after the copy", "why_tests_cant": "all pairs of unbounded histories", "anchors": ["Inc/queue.h:Queue_t", "Src/queue.c:Queue_enqueue", "Src/queue.c:Queue_dequeue", "Src/priority_queue.c:PriorityQueue_enqueue", "Src/priority_queue.c:PriorityQueue_dequeue", "Src/map.c:Map_insert"]}
{"id": "C130", "title": "What a map keeps, and the order of insertions", "statement": "After any history a map with n places holds the first n different keys offered, in the order of their first insertion, each with the last value offered for it (also after the map was full); a lookup finds exactly these. Two maps, anywhere, that keep the same answer every later history alike: no call shows anything else of the past, neither the order of the insertions nor lookups nor overwritten values. So different keys, not more than there are places, may be inserted in any order.", "quantifier": "all histories, capacities, key and value sizes, layouts", "why_tests_cant": "all pairs of unbounded histories", "anchors": ["Src/map.c:Map_insert", "Src/map.c:Map_getValue", "Src/map.c:GetIndex"]}
{"id": "C131", "title": "Slips in a Base64 text and the checksum of its bytes", "statement": "Data checked with one of the 45 checksum functions that travels as Base64 text. One wrong character (neither it nor the right one being =): after Base64_decode the checksum differs from the right one whenever the bytes do, at whatever place of whatever text, with a single exception: Crc8_wcdma does not notice a change of the second character of a group whose 6-bit value differs by 29. The bytes do differ if the 6-bit value does and all its bits are data bits. Two neighbouring characters of different values exchanged, all their bits being data bits: noticed by all 16-bit and 32-bit functions and by Crc8, Crc8_8h2f, Crc8_cdma2000, Crc8_icode, Crc8_itu, Crc8_saeJ1850 and Crc8_saeJ1850Zero; the other six miss exactly the differences in the table (for Crc8_dvbS2 a difference of 61 anywhere).", "quantifier": "all 45 functions, texts, places, characters", "why_tests_cant": "all texts and places; relates two modules", "anchors": ["Src/base64.c:Base64_decode", "Src/crc/crc8_variants", "Src/crc/crc16_variants", "Src/crc/crc32_variants"]}
{"id": "C132", "title": "What the queues show of their contents", "statement": "An observer who sees every address read or written and every decision, but no values (the usual model of timing leaks). Queue: any sequence of calls with the same structure and pointers shows the same, and gives the same answers and structure, whatever the bytes in memory. Priority queue: any sequence of calls shows the same and answers the same whatever the elements, and whatever the priorities as long as they are in the same order: one may replace all of them, stored and given, by others in the same order. Of the order, a dequeue shows exactly which stored priorities exceed all stored before them, an enqueue into a full queue exactly which are below all stored before them and whether the new item takes the place of one.", "quantifier": "all sequences of calls, structures, contents, priorities", "why_tests_cant": "relates all pairs of runs; no test sees addresses", "anchors": ["Src/queue.c:Queue_enqueue", "Src/queue.c:Queue_dequeue", "Src/queue.c:Queue_front", "Src/queue.c:Queue_rear", "Src/priority_queue.c:PriorityQueue_enqueue", "Src/priority_queue.c:PriorityQueue_dequeue"]}
{"id": "C133", "title": "What the map shows of its keys", "statement": "With memcmp comparing byte by byte up to the first difference, the addresses and decisions of Map_getValue and of Map_insert are the same in two runs (same structure and pointers) exactly if the key looked for agrees with the stored keys, up to the one found, in the same numbers of leading bytes. So nothing of the values and nothing else of the keys is shown, but who may choose the key looked for finds out the first stored key with 256 guesses for each of its bytes, and what all guesses show together determines all stored keys and their order.", "quantifier": "all maps, keys, values, sizes", "why_tests_cant": "relates all pairs of runs; no test sees addresses", "anchors": ["Src/map.c:Map_insert", "Src/map.c:Map_getValue", "Src/map.c:GetIndex"]}
{"id": "C134", "title": "What the Caesar cipher shows", "statement": "The addresses and decisions of CaesarCipher_encrypt are the same for two texts and two shifts exactly if the texts have the same length and characters of the same kinds (upper case, lower case, before, between or behind the letters) at the same places; the same holds for CaesarCipher_decrypt, and both functions show the same of a text. The shift is never shown.", "quantifier": "all texts, shifts, memories", "why_tests_cant": "relates all pairs of runs; no test sees addresses", "anchors": ["Src/crypto/caesar_cipher.c:CaesarCipher_encrypt", "Src/crypto/caesar_cipher.c:CaesarCipher_decrypt"]}
{"id": "C135", "title": "What a priority queue keeps, and the order of arrival", "statement": "Two priority queues with the same capacity and element size, anywhere and after any two histories, answer every later history alike (statuses and delivered elements) if and only if they hold the same elements with the same priorities, in the same order within each priority; how different priorities are mixed in the arrays does not show. So several producers, each with a priority of its own, may interleave their offers in any way as long as the queue does not overflow; and offers of pairwise different priorities may arrive in any order in any number, also far more than there are places: the same elements are kept and everything later is answered alike. Only an overflow of equal priorities depends on the order: then the older one is dropped if the higher priority comes last and the younger one if it comes first.", "quantifier": "all pairs of reachable states, all histories, capacities, element sizes, priorities, layouts", "why_tests_cant": "relates all pairs of unbounded histories, in both directions", "anchors": ["Src/priority_queue.c:PriorityQueue_enqueue", "Src/priority_queue.c:PriorityQueue_dequeue", "Src/priority_queue.c:PriorityQueue_empty"]}
{"id": "C136", "title": "How many steps the containers take", "statement": "Counting memory accesses and decisions (a memory access is one byte or one priority; members of the structures are not counted): a successful Queue_enqueue, Queue_dequeue, Queue_front or Queue_rear takes 2*element_size+1 steps and a refused one takes 1, whatever the capacity, the fill and the contents. A priority queue of n items takes 2*element_size+2 steps for an enqueue with room, 3n+5 for a refused one, and for a dequeue (n >= 1) exactly 3n+2*element_size+4 plus 2*element_size+3 for every item behind the one found; an evicting enqueue takes three more than that for the item of lowest priority. So n*(2*element_size+6)+1 and capacity*(2*element_size+6)+4 are the worst cases and are reached. A map lookup or insert reads each stored key in turn up to the first byte that differs, up to the equal key, so it takes at most d*(2*key_size+2) steps plus a constant given by the two sizes, where d is the number of distinct keys inserted, not the capacity.", "quantifier": "all reachable container states, all valid calls, all sizes, keys, priorities and contents", "why_tests_cant": "a test measures some runs; a bound on the response time must hold for every state a history can reach", "anchors": ["Src/queue.c:Queue_init", "Src/queue.c:Queue_enqueue", "Src/queue.c:Queue_dequeue", "Src/queue.c:Queue_front", "Src/queue.c:Queue_rear", "Src/queue.c:Queue_full", "Src/queue.c:Queue_empty", "Src/priority_queue.c:PriorityQueue_init", "Src/priority_queue.c:PriorityQueue_enqueue", "Src/priority_queue.c:PriorityQueue_dequeue", "Src/priority_queue.c:PriorityQueue_empty", "Src/map.c:Map_init", "Src/map.c:Map_insert", "Src/map.c:Map_getValue"]}
{"id": "C137", "title": "How many steps ciphers, checksums and Base64 take", "statement": "Counting memory accesses and decisions: ChaCha20 takes 421 steps for every full block, 164 and four per byte for a part of one, and 2 for the rest, for all keys, nonces, counters and texts; a checksum of len bytes of width w takes 4*len+3 steps, 17*len more with reflected input and 2w+1 more with reflected output; a successful Base64_encode takes 16 steps per group of three bytes and 4, 14 or 17 for the rest of 0, 1 or 2 bytes, and a failed one never takes more; the Caesar cipher takes 7, 12, 8, 13 or 9 steps per character by its kind (below A, A-Z, between, a-z, above) and 2 for the rest, in both directions and for every shift; the Vernam cipher with a key of the length of the text takes the same per character, for a letter 3 more (4 if the key character is 97 or above) and when decrypting another 1, and 3 for the rest, whichever letters they are; a refused Vernam call takes 2 steps more than there are characters.", "quantifier": "all inputs for which the functions are defined, of any length", "why_tests_cant": "no test can try all lengths and contents; a data-dependent extra step shows only for some", "anchors": ["Src/crypto/chacha20.c:Chacha20_crypt", "Src/crc/crc8_base.c:Crc8Base", "Src/crc/crc16_base.c:Crc16Base", "Src/crc/crc32_base.c:Crc32Base", "Src/base64.c:Base64_encode", "Src/crypto/caesar_cipher.c:CaesarCipher_encrypt", "Src/crypto/caesar_cipher.c:CaesarCipher_decrypt", "Src/crypto/vernam_cipher.c:VernamCipher_encrypt", "Src/crypto/vernam_cipher.c:VernamCipher_decrypt"]}
{"id": "C138", "title": "Records of fields, and a checksum behind them", "statement": "Fields of 8, 16, 24 and 32 bits of either byte order, written with the Utils serialisers to places of a buffer that have no byte in common, all read back (the bits for which the field has room), whatever the order of the writes; the order does not change any byte; nothing outside the fields changes; a field can be changed later without disturbing the others; the calls are defined exactly if all fields lie inside the buffer. Fields one behind the other take the sum of their sizes; what is read depends on the bytes alone and not on where they lie, and reading a record and writing the values elsewhere copies its bytes, so no two byte strings stand for the same record. With any of the 45 checksums of the record written behind it in the byte order of the function, a receiver that compares the checksum of the arriving record with the one behind it accepts unharmed bytes wherever they lie and reads the values sent, and refuses them after any error burst not longer than the checksum, whether it hits the record, the checksum or both.", "quantifier": "all lists of fields, values, offsets, buffers, checksum functions, bursts", "why_tests_cant": "unboundedly many layouts, orders, values and error patterns", "anchors": ["Src/utils.c:Utils_serialize32BE", "Src/utils.c:Utils_deserialize32LE", "Src/crc/crc8_base.c:Crc8Base", "Src/crc/crc16_base.c:Crc16Base", "Src/crc/crc32_base.c:Crc32Base"]}
{"id": "C139", "title": "Queues in series", "statement": "Any number n of queues with elements of one size, each passing its elements on to the next through a variable, either after asking Queue_full of the next one or by Queue_front, Queue_enqueue and only then Queue_dequeue, with offers, passings on and takings interleaved in any way: together they are one FIFO. Nothing is undefined; the elements taken so far are the first of those accepted, in their order, and the rest, none lost or doubled, lies in the buffers of the queues, the oldest in the last one. An offer is accepted exactly if the first queue is not full, an element passed on exactly if there is one and the next queue is not full. Nothing gets stuck: if nothing can be passed on or taken, everything accepted has been taken; and every element takes exactly n steps from acceptance to taking. Passing on without asking is the same while there is room in the next queue, and otherwise loses the oldest element.", "quantifier": "all numbers of queues, capacities, element sizes, buffers, histories", "why_tests_cant": "unbounded histories and chains", "anchors": ["Src/queue.c:Queue_init", "Src/queue.c:Queue_enqueue", "Src/queue.c:Queue_dequeue", "Src/queue.c:Queue_front", "Src/queue.c:Queue_rear", "Src/queue.c:Queue_full", "Src/queue.c:Queue_empty"]}
{"id": "C140", "title": "Which bytes decide a JSON lookup", "statement": "(1) A value found by Json_findByKey is found again in every buffer, anywhere and of any size, that begins with the same bytes up to the closing quote of the value: what follows does not matter, and no shorter beginning suffices. So a member that can be looked up in a text can still be looked up after any further Json_addData calls, successful or not. (2) If the first occurrence of the key is followed by another character than a quote, the lookup fails whatever follows. (3) In all other cases in which nothing is found the answer is still open: some continuation of the text makes the lookup succeed. (4) The lookup does not stop at the NUL: if the (non-empty) key does not occur in the C string in the buffer, it is looked up in the bytes behind the NUL. So after a second document was built in the same buffer the value of a key of the first one may still be found, although the second one does not contain it. Called with the length of the C string instead of the size of the buffer, the function answers for the text alone.", "quantifier": "all buffers, texts, keys, values, continuations, sizes below 2^32-1", "why_tests_cant": "unboundedly many texts and continuations; stale data shows only when a buffer is used again", "anchors": ["Src/json.c:Json_findByKey", "Src/json.c:Json_addData", "Src/json.c:Json_startString"]}
{"id": "C141", "title": "How many steps a JSON lookup takes", "statement": "Counting byte reads, byte writes and decisions (strncmp byte by byte up to the first difference): Json_findByKey with a key of k characters takes, at every place before the one where the key first stands, five steps and four for every character that agrees there, and then a number given by the distances to the next two quotes. That is never more than (n-k)(4k+7)+k+6 for a buffer of n bytes, whatever it contains and whatever the size of the output, and the order is reached: n equal characters and a key of k-1 such and a different one take exactly (n-k)(4k+1)+k+4, so with n=2k more than n*n. If the first character of the key does not occur the steps are 5(n-k)+k+4. The steps of a lookup that finds do not depend on what follows the value, on the size of the buffer or on spare room in the output.", "quantifier": "all buffers, keys, sizes below 2^32-1, outputs", "why_tests_cant": "a test measures some runs; a bound on the response time must hold for every buffer", "anchors": ["Src/json.c:Json_findByKey"]}
{"id": "C142", "title": "What Base64_decode shows", "statement": "An observer who sees every address read or written, every table index and every decision, but no values. A successful Base64_decode looks up every character of the text but the padding in a table, and the indices are the characters themselves; two successful calls with the same arguments (also in place) show the same exactly if the texts are the same, including the character behind the text that is read where the stated length is 1 modulo 4. So decoding shows all of its text, in whichever alphabet and also its unused bits. A call refused before decoding shows nothing but whether the last character is the padding (and that only if the length is a multiple of four). A successful call takes 12 steps for every whole group, 10 for the rest (8 if the length is no multiple of four), and 6, 8 or 12 for a last group that is not a whole one: without a third character, with padding there, with another character there.", "quantifier": "all texts, lengths, memories, overlaps with the output before or at the text", "why_tests_cant": "relates all pairs of runs; no test sees addresses", "anchors": ["Src/base64.c:Base64_decode"]}
{"id": "C143", "title": "How many steps building a JSON text takes", "statement": "Counting byte reads, byte writes and decisions (the string functions go byte by byte): Json_addData to a text of t characters with a key and value of k and v characters takes t+k+v+7 steps, 4 more if the text ends with a quote, and 3(k+v)+14 more if it succeeds; Json_endString takes t+2, and 2 more if it succeeds. So building a document that fits takes two less than four times its length plus the lengths of all the documents with the first 0, 1, ..., n members: at most n+5 times the length of the document, and at least 3n*n+28n+4 steps for n members whatever the keys and values, which is reached if all are empty. The time therefore grows with the square of the number of members: every addition reads the whole text again.", "quantifier": "all documents, keys, values, buffers, sequences of additions with failing ones", "why_tests_cant": "a test measures some runs; unboundedly many documents", "anchors": ["Src/json.c:Json_startString", "Src/json.c:Json_addData", "Src/json.c:Json_endString"]}
{"id": "C144", "title": "What a JSON lookup shows", "statement": "To an observer who sees every address read or written and every decision, but no values: two Json_findByKey calls with the same arguments show the same exactly if their keys have the same length, the key agrees with the text at every place, up to the one where it stands, in the same number of leading characters, and, if a quote follows it there, the next quote is equally far away and equally many characters are copied. So the lookup of a key shows nothing of its value but the length, and nothing of what follows. But who may choose the key learns the whole text: with a beginning of it known, the next character is the one for which a comparison at the first place goes one further, so 255 keys suffice for each; all keys together determine the text up to its NUL.", "quantifier": "all buffers, keys, sizes below 2^32-1, outputs", "why_tests_cant": "relates all pairs of runs; no test sees addresses", "anchors": ["Src/json.c:Json_findByKey"]}
{"id": "C145", "title": "What building a JSON text shows", "statement": "To an observer who sees every address read or written and every decision, but no values (string functions byte by byte): a Json_addData call shows the lengths of the text, the key and the value and whether the text ends with a quote, and nothing else; if the three lie in different objects, two calls with the same arguments show the same exactly if these four agree. Building two documents with members of the same lengths shows the same, whatever the characters.", "quantifier": "all buffers, texts, keys, values, sequences of additions", "why_tests_cant": "relates all pairs of runs; no test sees addresses", "anchors": ["Src/json.c:Json_startString", "Src/json.c:Json_addData", "Src/json.c:Json_endString"]}
{"id": "C146", "title": "What reading a number shows", "statement": "To an observer who sees every address read or written, every table index and every decision, but no values: two calls of Utils_stringToUint32 with the same arguments show the same exactly if their texts have equally many digits at the front, the characters behind them lie on the same side of the digits (as values of type char), and, for ten digits, the first nine digits compare alike with 429496729 and, if equal to it, the last one alike with 5; of a text of more than ten characters only the first one is shown. So an accepted number shows only how many digits it has, and with ten digits whether it is one of the six greatest 32-bit numbers. An accepted number of n <= 9 digits takes 9n+3 steps, one of ten digits 92 (the six greatest 93); no call takes more than 93, and with more than ten characters none more than 12.", "quantifier": "all texts, lengths, memories, char signed or not", "why_tests_cant": "relates all pairs of runs; no test sees addresses", "anchors": ["Src/utils.c:Utils_stringToUint32", "Src/utils.c:Utils_quickUint32Pow10"]}
{"id": "C147", "title": "What the sorts show", "statement": "To an observer who sees every address read or written and every decision, but no values (the comparison function reads all bytes of both elements; only its answers where the sort branches on them are decisions): two runs of bubble, selection, insertion or heap sort on arrays at the same place with equally many elements of the same size, with any comparison functions (insertion sort: elements of at most 64 bytes and room for one before the array; heap sort: readable memory behind it), show the same if the elements compare alike place by place; and if they show the same, they have moved the elements in the same way. So with a strict weak order and no two elements tied, the runs show the same exactly if the elements of the two arrays have the same order: what is shown is the order and nothing else, in particular nothing of the values, of bytes the comparison ignores, or of what heap sort compares behind and insertion sort before the array.", "quantifier": "all arrays, element sizes, comparison functions, memories", "why_tests_cant": "relates all pairs of runs; no test sees addresses", "anchors": ["Src/sort/bubble_sort.c:BubbleSort_sort", "Src/sort/selection_sort.c:SelectionSort_sort", "Src/sort/insertion_sort.c:InsertionSort_sort", "Src/sort/heap_sort.c:HeapSort_sort", "Src/utils.c:Utils_swapElements"]}
{"id": "C148", "title": "How many steps the sorts take", "statement": "Counting bytes read and written (a comparison reads all bytes of both elements) and decisions, with any comparison function and for n elements of s bytes: bubble sort takes at least (n-1)(2s+2)+3 and at most n(n-1)/2*(7s+3)+2n+1 steps (n >= 1); selection sort n(n-1)/2*(2s+2)+3(n-1)+1 steps and at most (n-1)(5s+1) more; insertion sort at least (n-1)(6s+3)+1 and at most n(n-1)/2*(4s+2)+(n-1)(6s+2)+1; heap sort at least (n/2)(4s+6)+n(9s+7)+2 and at most (n/2)(4s+8)+n(L(9s+7)+18s+16)+2 with L the binary logarithm of n rounded down. The bounds of the first three are the best ones: for all n and s they are reached with comparison functions that always give the same answer.", "quantifier": "all arrays, element sizes, comparison functions, memories", "why_tests_cant": "a bound for all runs of all sizes", "anchors": ["Src/sort/bubble_sort.c:BubbleSort_sort", "Src/sort/selection_sort.c:SelectionSort_sort", "Src/sort/insertion_sort.c:InsertionSort_sort", "Src/sort/heap_sort.c:HeapSort_sort", "Src/utils.c:Utils_swapElements"]}
{"id": "C149", "title": "What the serialisers and the reflection of bits show", "statement": "To an observer who sees every address read or written and every decision: the functions that serialise and deserialise numbers show the places they access, in the order of their text (the little-endian ones from the highest place down), and nothing of the number; those for blobs and the exchange of two elements show the number of bytes and nothing of the bytes (little-endian blobs of less than 2^31 bytes). So secrets may pass through them. The reflection of the low n bits of a number takes 2n+1 steps, but shows all of these bits: two reflections of n bits show the same exactly if these bits are the same.", "quantifier": "all values, sizes, addresses, memories", "why_tests_cant": "relates all pairs of runs; no test sees addresses", "anchors": ["Src/utils.c:Utils_serialize8", "Src/utils.c:Utils_serialize16BE", "Src/utils.c:Utils_serialize24BE", "Src/utils.c:Utils_serialize32BE", "Src/utils.c:Utils_serializeBlobBE", "Src/utils.c:Utils_serialize16LE", "Src/utils.c:Utils_serialize24LE", "Src/utils.c:Utils_serialize32LE", "Src/utils.c:Utils_serializeBlobLE", "Src/utils.c:Utils_deserialize32BE", "Src/utils.c:Utils_deserialize32LE", "Src/utils.c:Utils_deserializeBlobBE", "Src/utils.c:Utils_deserializeBlobLE", "Src/utils.c:Utils_swapElements", "Src/bit_manipulation.c:BitManipulation_reflect"]}
{"id": "C150", "title": "What the scheduler shows", "statement": "To an observer of the accesses to the task table, of the decisions and of which functions are called: initialising n entries shows only n, in 3n+1 steps; adding a task shows which entry is the first free one and nothing else, neither the task added nor the other entries, in three steps for every occupied entry before it and seven for the free one (one if there is none); a run with task functions that leave the table alone shows exactly which entries are empty, inactive, or active and with which function, not the functions of inactive entries nor the marks of empty ones, in three, five or seven steps per entry; with task functions that change the table it shows in the same way what it finds in each entry when its turn comes. The observed code computes what the unobserved code computes.", "quantifier": "for all task tables, numbers of entries, new tasks and task functions", "why_tests_cant": "A claim on what is not observable relates all pairs of tables; a test compares a few.", "anchors": ["Src/scheduler.c:Scheduler_init", "Src/scheduler.c:Scheduler_addTask", "Src/scheduler.c:Scheduler_run"]}
