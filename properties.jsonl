{"id": "C01", "title": "flat_map is a finite map under every history", "statement": "Starting from an empty flat_map, any sequence of insert, operator[] assignment, erase(key), clear gives the same answers as a mathematical finite map: insert never overwrites an existing key and reports whether it inserted, m[k]=v sets k, erase(k) reports how many entries it removed and makes k absent, find/contains/count/at agree with the map (at reports an error exactly for absent keys), size is the number of distinct keys, and iteration visits every entry exactly once in strictly ascending key order.", "quantifier": "all finite operation sequences, all keys of a totally ordered type, all values", "why_tests_cant": "The claim ranges over every finite history of calls; a test fixes one history and one size.", "anchors": ["xo/container/flat_map.h: flat_map::insert, operator[], erase, find, at, count, contains, lower_bound, upper_bound, begin/end"]}
{"id": "C02", "title": "flat_set is a finite set under every history", "statement": "Starting from an empty flat_set, any sequence of insert and erase behaves like a mathematical set: membership, insertion flag, erase count, size, and iteration in strictly ascending order without duplicates.", "quantifier": "all finite operation sequences over any totally ordered key type", "why_tests_cant": "The claim ranges over every finite history of calls; a test fixes one history and one size.", "anchors": ["xo/container/flat_set.h: flat_set::insert, erase, find, contains, count"]}
{"id": "C03", "title": "Brace-initialised flat containers keep the container contract", "statement": "A flat_map or flat_set built from an initializer list satisfies the same contract as one built by inserting the listed elements: each key occurs once, and after erase(k) the key k is absent.", "quantifier": "all initializer lists, including lists with repeated keys", "why_tests_cant": "Needs every list, in particular lists with equal keys, which example tests rarely use.", "anchors": ["xo/container/flat_map.h: flat_map(initializer_list), sort", "xo/container/flat_set.h: flat_set(initializer_list), sort"]}
{"id": "C04", "title": "sorted_vector is a sorted multiset under every history", "statement": "After any sequence of insert and remove on a sorted_vector the elements are in ascending order and their multiset is exactly the inserted elements minus, for every remove(e), all elements equal to e present at that time; find(e) succeeds exactly if e is present and then points at an element equal to e.", "quantifier": "all finite operation sequences, all element values of a totally ordered type", "why_tests_cant": "The claim ranges over every finite history of calls; a test fixes one history and one size.", "anchors": ["xo/container/sorted_vector.h: insert, remove, find"]}
{"id": "C05", "title": "indexed_map keeps insertion order and map semantics", "statement": "For any sequence of insert (which replaces the value of an existing key) and operator[] on an indexed_map, lookup by key returns the last value stored under that key, positions never change once assigned, keys appear in order of first insertion and exactly once.", "quantifier": "all finite operation sequences", "why_tests_cant": "The claim ranges over every finite history of calls; a test fixes one history and one size.", "anchors": ["xo/container/indexed_map.h: insert, operator[], find"]}
{"id": "C06", "title": "indexed_set assigns stable, unique indices", "statement": "For any sequence of get_or_add calls on an indexed_set, equal values get equal indices, different values get different indices, an index once handed out always reads back the same value, and a call that reports an error (index range exhausted) leaves the set unchanged.", "quantifier": "all finite call sequences and all index widths", "why_tests_cant": "The claim ranges over every finite history of calls; a test fixes one history and one size.", "anchors": ["xo/container/indexed_set.h: get_or_add, try_get, operator[]"]}
{"id": "C07", "title": "label_vector lookup agrees with its labels", "statement": "For a label_vector obtained by any constructor and any sequence of add, set and find_or_add calls, looking up a label returns an index at which that label is stored, and finds every stored label.", "quantifier": "all constructors and all finite call sequences", "why_tests_cant": "The claim ranges over every finite history of calls; a test fixes one history and one size.", "anchors": ["xo/container/label_vector.h: label_vector, add, set, find"]}
{"id": "C08", "title": "storage never moves or loses a cell", "statement": "A storage is a matrix of frames by channels. For any sequence of add_channel, add_frame, resize and element writes, each cell (frame, channel) reads back the value most recently written to it, cells never written read the fill value given when the frame or channel was created, and growing the number of channels after frames exist keeps every existing cell.", "quantifier": "all finite operation sequences, all frame and channel counts", "why_tests_cant": "The claim ranges over every finite history of calls; a test fixes one history and one size.", "anchors": ["xo/container/storage.h: resize, add_channel, add_frame, operator(), operator[]"]}
{"id": "C09", "title": "find_frame_index returns a nearest frame", "statement": "For a storage with a channel that is sorted ascending, find_frame_index(sto, channel, v) returns the index of a frame whose channel value is nearest to v.", "quantifier": "all non-empty sorted channels of any length, all search values", "why_tests_cant": "Needs every boundary between neighbouring frames, including the first pair.", "anchors": ["xo/container/storage_tools.h: find_frame_index"]}
{"id": "C10", "title": "table cells survive adding rows and columns", "statement": "For any sequence of add_row, add_column, get_or_add_row/column and cell writes on a table, the value of every existing (row label, column label) cell is unchanged by later additions, and a new cell holds the requested default.", "quantifier": "all finite operation sequences on a table", "why_tests_cant": "The claim ranges over every finite history of calls; a test fixes one history and one size.", "anchors": ["xo/container/table.h: add_row, add_column, resize, operator()"]}
{"id": "C11", "title": "circular_deque behaves as a double-ended queue", "statement": "For any sequence of push_back, push_front, pop_back, pop_front, the element sequence read through operator[], front, back and iteration equals the sequence of a mathematical deque; growing the buffer when it is full neither loses, duplicates nor reorders elements.", "quantifier": "all finite operation sequences, all initial capacities", "why_tests_cant": "The claim ranges over every finite history of calls; a test fixes one history and one size.", "anchors": ["xo/container/circular_deque.h: push_back, push_front, pop_back, pop_front, operator[], back, reserve"]}
{"id": "C12", "title": "circular_buffer yields the most recent complete frames in order", "statement": "After any number of set/advance calls on a circular_buffer with N frames, get(channel) reads the oldest of the min(n, N-1) most recently completed frames with every value written to it intact, back(channel) reads the frame being filled, and the buffer reports empty exactly if no completed frame is readable.", "quantifier": "all frame and channel counts, all write histories", "why_tests_cant": "The claim ranges over every finite history of calls; a test fixes one history and one size.", "anchors": ["xo/container/circular_buffer.h: advance, get, set, empty"]}
{"id": "C13", "title": "flag_set operations act on exactly one flag", "statement": "For every flag enumerator below the storage width: after set(f,v) get(f) is v and every other flag is unchanged, toggle flips only f, any() is true exactly if some flag is set, any(list) and count(list) tell whether and how many of the listed flags are set, and clear() makes all flags false.", "quantifier": "all flag values below the storage width, all initial states", "why_tests_cant": "2^64 states times 64 flags cannot be enumerated.", "anchors": ["xo/container/flag_set.h: get, set, toggle, any, count, clear"]}
{"id": "C14", "title": "handle_vector handles address the element they were issued for", "statement": "A handle returned by push_back on a handle_vector refers to the pushed element as long as no element is erased, contains(h) is true exactly for handles of existing elements, a moved-from or default handle is never contained, and after erase(h) the update rule maps every surviving handle to the position its element moved to.", "quantifier": "all finite push/erase histories, all handles", "why_tests_cant": "The claim ranges over every finite history of calls; a test fixes one history and one size.", "anchors": ["xo/container/handle_vector.h: push_back, contains, erase, find", "xo/utility/handle.h: handle, handle_span, update_moved_handle"]}
{"id": "C15", "title": "prop_node child access laws", "statement": "In a prop_node, after set(key, v) reading key gives v and every other key reads as before; add_child appends without disturbing existing children; get_child reports an error exactly if no child has the key, and otherwise returns the first; erase(key) removes exactly the first child with that key and keeps the order of the rest.", "quantifier": "all trees, keys and values, including trees with repeated and empty keys", "why_tests_cant": "The set of trees is infinite and repeated keys interact with first-match lookup.", "anchors": ["xo/container/prop_node.h: set, get, try_get, add_child, get_or_add_child, erase", "xo/container/prop_node.cpp: try_get_child, get_child"]}
{"id": "C16", "title": "prop_node path queries read back what was written", "statement": "After set_query(path, v) the same query returns v; queries on paths that diverge from it at a key are unaffected; erase_query(path) removes what the query found; all of this holds for any delimiter character.", "quantifier": "all trees, all query paths, all delimiter characters", "why_tests_cant": "Paths and trees are unbounded and the delimiter is a parameter.", "anchors": ["xo/container/prop_node.cpp: try_get_query, get_or_add_query, erase_query, try_get_query_key", "xo/container/prop_node.h: set_query"]}
{"id": "C17", "title": "prop_node merge laws", "statement": "merge(other) keeps all children of the target, adds every child of other that is missing (recursively), with overwrite=true the values of other win and with overwrite=false existing values are kept; merging a node into itself or merging the same node twice changes nothing more (for nodes with unique keys).", "quantifier": "all pairs of trees, both overwrite modes", "why_tests_cant": "Recursive interaction of two arbitrary trees.", "anchors": ["xo/container/prop_node.cpp: prop_node::merge"]}
{"id": "C18", "title": "unaccessed-value reporting is exact", "statement": "count_unaccessed is the number of nodes in the tree that hold a value and have not been marked as accessed; after set_accessed_recursively it is zero; reading a value marks exactly that node.", "quantifier": "all trees and all read histories", "why_tests_cant": "The claim ranges over every finite history of calls; a test fixes one history and one size.", "anchors": ["xo/container/prop_node.cpp: count_unaccessed, set_accessed_recursively, is_accessed, get_str"]}
{"id": "C19", "title": "prop_node equality is structural", "statement": "Two prop_nodes compare equal exactly if they have the same value and the same sequence of (key, child) pairs, recursively; reading from a node never changes what it is equal to.", "quantifier": "all pairs of trees", "why_tests_cant": "Infinite pairs of trees.", "anchors": ["xo/container/prop_node.cpp: operator=="]}
{"id": "C20", "title": "ZML write/read round trip", "statement": "Writing a prop_node to ZML text and reading the text back yields an equal prop_node.", "quantifier": "all prop_nodes: every tree shape, every key and value string", "why_tests_cant": "The space of trees and strings is infinite; quoting, arrays, nesting and layout choices interact.", "anchors": ["xo/serialization/prop_node_serializer_zml.cpp: write_zml, parse_zml, write_zml_kvp, write_zml_node, read_zml_layer"]}
{"id": "C21", "title": "ZML/character-stream reading terminates on every input", "statement": "Reading any text as ZML terminates: it returns a tree or reports an error, and never loops forever or reads outside the text.", "quantifier": "all finite input texts", "why_tests_cant": "Non-termination on one malformed text is invisible to tests that never try that text.", "anchors": ["xo/serialization/char_stream.cpp: get_token", "xo/string/string_tools.cpp: decode_char", "xo/serialization/prop_node_serializer_zml.cpp: read_zml_layer, get_zml_token"]}
{"id": "C22", "title": "ZML comments and whitespace are insignificant", "statement": "Inserting whitespace or comments between tokens of a ZML text does not change the parsed tree.", "quantifier": "all token sequences and all separators made of blanks and comments", "why_tests_cant": "Unbounded choice of texts and insertions.", "anchors": ["xo/serialization/prop_node_serializer_zml.cpp: get_zml_token", "xo/serialization/char_stream.cpp: get_token"]}
{"id": "C23", "title": "INI write/read round trip", "statement": "Writing a two-level prop_node to INI text and reading it back yields an equal prop_node.", "quantifier": "all two-level prop_nodes", "why_tests_cant": "Infinite set of trees and strings; order of groups and top-level items interacts.", "anchors": ["xo/serialization/prop_node_serializer_ini.cpp"]}
{"id": "C24", "title": "quoting is invertible", "statement": "For every string s, reading back the quoted form of s yields s: decode(encode(c)) = c for every character, and try_unquoted(quoted(s)) = s.", "quantifier": "all strings over all 256 character values", "why_tests_cant": "Strings are unbounded; escape sequences interact with neighbouring characters.", "anchors": ["xo/string/string_tools.cpp: encode_char, decode_char, quoted, try_quoted, try_unquoted"]}
{"id": "C25", "title": "split and concat are inverse", "statement": "Splitting a string at separators returns the maximal separator-free pieces in order, no piece contains a separator or is empty, and concatenating separator-free non-empty pieces with a separator and splitting again returns the pieces; split_str_at_first/last re-joined with the separator give the original string.", "quantifier": "all strings, separator sets and piece lists", "why_tests_cant": "Unbounded strings and separators.", "anchors": ["xo/string/string_tools.cpp: split_str, split_str_at_first, split_str_at_last, concat_str"]}
{"id": "C26", "title": "trim removes exactly the outer blanks", "statement": "trim_str(s) is s without its leading and trailing whitespace, inner characters unchanged; it is idempotent and equals left trim then right trim; a string of blanks becomes empty.", "quantifier": "all strings", "why_tests_cant": "Unbounded strings.", "anchors": ["xo/string/string_tools.cpp: trim_str, trim_left_str, trim_right_str"]}
{"id": "C27", "title": "replace_str replaces every occurrence once and terminates", "statement": "replace_str(s, from, to) terminates, replaces exactly the leftmost non-overlapping occurrences of from in the original text, never rescans inserted text, leaves the rest unchanged, and an empty from is reported as an error.", "quantifier": "all strings s, from, to — including to containing from", "why_tests_cant": "Termination and non-rescanning must hold for every pair of patterns.", "anchors": ["xo/string/string_tools.cpp: replace_str"]}
{"id": "C28", "title": "find_nth_str finds the n-th occurrence", "statement": "find_nth_str(s, pat, n) returns the position of the n-th occurrence of pat, or npos if there are fewer.", "quantifier": "all strings, patterns, n", "why_tests_cant": "Unbounded; occurrences at position zero are a corner case.", "anchors": ["xo/string/string_tools.cpp: find_nth_str"]}
{"id": "C29", "title": "integers survive text conversion", "statement": "For every value of every integer type, from_str(to_str(x)) = x; from_str reports failure for text without a leading number, and for text whose number does not fit it does not silently produce another value.", "quantifier": "all 32-bit and 64-bit integers, all texts", "why_tests_cant": "2^64 values and unbounded texts.", "anchors": ["xo/string/string_cast.cpp: to_str, from_str"]}
{"id": "C30", "title": "version comparison is a consistent order", "statement": "Version comparison is a total preorder: antisymmetric up to equality, transitive, == is an equivalence relation compatible with <, and is_at_least is the negation of is_below.", "quantifier": "all triples of versions", "why_tests_cant": "Transitivity quantifies over triples of arbitrary versions.", "anchors": ["xo/system/version.h: version_compare and comparison operators"]}
{"id": "C31", "title": "version text round trip", "statement": "from_str(to_str(v)) gives back v for every version.", "quantifier": "all versions, all postfixes, all initial contents of the target", "why_tests_cant": "Unbounded versions and postfix strings.", "anchors": ["xo/string/string_cast.cpp: from_str(version), to_str(version)"]}
{"id": "C32", "title": "path decomposition laws", "statement": "For every path p: parent_path / filename gives back p, stem plus extension gives back filename, replace_extension changes only the extension of the last component, and a path without an extension in its last component has an empty extension.", "quantifier": "all path strings", "why_tests_cant": "Unbounded strings with separators and dots in every arrangement.", "anchors": ["xo/filesystem/path.cpp: parent_path, filename, extension, stem, replace_extension, replace_stem, operator/"]}
{"id": "C33", "title": "factory registry semantics", "statement": "After any sequence of register and unregister calls, create(name) makes an object with the creator last successfully registered under that name, reports an error for unknown names, registering a used name reports an error and changes nothing, try_create returns null exactly for unknown names.", "quantifier": "all finite histories of register, unregister, create", "why_tests_cant": "The claim ranges over every finite history of calls; a test fixes one history and one size.", "anchors": ["xo/utility/factory.h: register_type, unregister_type, create, try_create"]}
{"id": "C34", "title": "file_resource_cache is safe and fresh under concurrency", "statement": "For any number of threads calling the cache in any interleaving, every call returns a resource created for the requested name from the file contents of a modification time not older than the last check, no name is ever created twice for the same file time, and if creating a resource fails the failure is reported again rather than stale data being served as fresh.", "quantifier": "all interleavings of any number of threads, all failure points", "why_tests_cant": "Interleavings and failure points cannot be enumerated by tests.", "anchors": ["xo/utility/file_resource_cache.h: operator()"]}
{"id": "C35", "title": "memoize is transparent", "statement": "Calling a memoized function returns what the function returns for those arguments, for any call history; the wrapped function is called at most once per distinct argument tuple, and for the thread-safe version this holds under every interleaving of threads.", "quantifier": "all call histories and all interleavings", "why_tests_cant": "Interleavings cannot be enumerated by tests.", "anchors": ["xo/utility/memoize.h: memoize, memoize_thread_safe"]}
{"id": "C36", "title": "a log message reaches exactly the interested sinks", "statement": "At any moment, logging a message at level l delivers it exactly once to every registered sink whose level is at most l (and whose thread filter accepts the caller), and to no other sink; the global fast-path level check never suppresses a message some sink wants, after any history of adding, removing and re-levelling sinks.", "quantifier": "all finite histories of sink creation, destruction and level changes, all levels", "why_tests_cant": "The claim ranges over every finite history of calls; a test fixes one history and one size.", "anchors": ["xo/system/log.cpp: add_sink, remove_sink, test_log_level, log_string", "xo/system/log_sink.cpp: sink, set_log_level, submit_log_message"]}
{"id": "C37", "title": "profiler accounting is exact", "statement": "For every properly nested sequence of scoped sections and clock readings, each section's total time is the sum of its intervals, each section is counted once per entry, the same name under the same parent is one section, exclusive time is total minus children, and exclusive times over the whole tree sum to the root total.", "quantifier": "all properly nested section histories and all monotone clock readings", "why_tests_cant": "The claim ranges over every finite history of calls; a test fixes one history and one size.", "anchors": ["xo/system/profiler.cpp: start_section, end_section, acquire_section, exclusive_time"]}
{"id": "C38", "title": "settings only hold valid values and fall back to defaults", "statement": "After any sequence of set calls, get(id) returns the last accepted value or the schema default; set reports false and changes nothing for undefined ids and disallowed values; numeric values of ranged settings are always inside the range; setting the default or an empty value removes the override.", "quantifier": "all schemas, all finite histories of set calls", "why_tests_cant": "The claim ranges over every finite history of calls; a test fixes one history and one size.", "anchors": ["xo/system/settings.cpp: try_set, try_find_setting", "xo/system/settings.h: get, set"]}
{"id": "C39", "title": "stop tokens observe exactly their own source", "statement": "A token reports stop_requested exactly if request_stop was called on a source sharing its state; once true it stays true; tokens of other sources and default tokens never become true.", "quantifier": "all histories of creating, copying and stopping sources and tokens", "why_tests_cant": "The claim ranges over every finite history of calls; a test fixes one history and one size.", "anchors": ["xo/thread/stop_token.h: stop_source, stop_token"]}
{"id": "C40", "title": "timer measures exactly its running time", "statement": "For any alternation of pause and resume, the timer shows the total of the running intervals; restart returns the time shown and starts from zero; set(t) makes it show t.", "quantifier": "all clock readings, all pause/resume/restart/set histories", "why_tests_cant": "The claim ranges over every finite history of calls; a test fixes one history and one size.", "anchors": ["xo/time/timer.cpp: operator(), pause, resume, restart, set"]}
{"id": "C41", "title": "stopwatch splits add up", "statement": "For any history of split and restart calls, each split's time is the sum of the corresponding intervals over all rounds, and names stay attached to their position.", "quantifier": "all histories of split, restart and clear", "why_tests_cant": "The claim ranges over every finite history of calls; a test fixes one history and one size.", "anchors": ["xo/time/stopwatch.h: split, restart, clear"]}
{"id": "C42", "title": "time arithmetic is exact", "statement": "Addition, subtraction, negation and division of time values by a count are exact integer nanosecond arithmetic (division truncates), for positive and negative times.", "quantifier": "all times and all counts without overflow", "why_tests_cant": "2^128 argument pairs.", "anchors": ["xo/time/time.h: operator+, operator-, operator/(size_t)"]}
{"id": "C43", "title": "interval_checker fires at most once per interval", "statement": "For non-decreasing time stamps, two consecutive successful checks are at least one interval apart, and a check at least one interval after the last success always succeeds.", "quantifier": "all sequences of time stamps, all intervals", "why_tests_cant": "The claim ranges over every finite history of calls; a test fixes one history and one size.", "anchors": ["xo/time/interval_checker.h: check"]}
{"id": "C44", "title": "side suffix operations are consistent", "statement": "For every name: mirroring twice gives the name back, mirroring a sided name gives the opposite side, setting a side makes that side readable, and removing the side of a name gives the base name; str_append_before_side keeps the side.", "quantifier": "all strings", "why_tests_cant": "Unbounded strings; suffixes may repeat.", "anchors": ["xo/utility/side.h: str_get_side, str_set_side, str_remove_side, str_mirrored_side, str_append_before_side"]}
{"id": "C45", "title": "smart enum text conversion round trip", "statement": "For an enumeration declared with distinct plain identifiers, to_str followed by from_str gives the enumerator back for every enumerator, and from_str rejects every text that is not one of the identifiers.", "quantifier": "all enumerator lists and all enumerators", "why_tests_cant": "Quantifies over all declared enumerations.", "anchors": ["xo/utility/smart_enum.h: to_str, from_str"]}
{"id": "C46", "title": "optional comparison and access are coherent", "statement": "For every optional: value() reports an error exactly if empty, value_or gives the value or the default, == compares contents with empty equal only to empty, != is the negation of ==, and constructing from a value makes it non-empty.", "quantifier": "all values of integral, floating-point and class types", "why_tests_cant": "Covers every value including the internal sentinel.", "anchors": ["xo/utility/optional.h: optional, operator==, operator!="]}
{"id": "C47", "title": "compile-time and run-time hash agree", "statement": "hash_constexpr(s) and hash(s) give the same 64-bit value for every C string, and it is the FNV-1a hash of its bytes.", "quantifier": "all strings", "why_tests_cant": "Unbounded strings over 256 byte values.", "anchors": ["xo/utility/hash.h: hash, hash_constexpr"]}
{"id": "C48", "title": "integer helpers are correct", "statement": "greatest_common_divisor(a,b) is the greatest common divisor, is_power_of_two(n) is true exactly for powers of two, count_digits(n, base) is the number of digits of n in that base.", "quantifier": "all integers, all bases", "why_tests_cant": "Infinite domain.", "anchors": ["xo/numerical/math.h: greatest_common_divisor, is_power_of_two, count_digits"]}
{"id": "C49", "title": "clamp and wrap stay inside their range", "statement": "clamped(v,lo,hi) lies in [lo,hi] and equals v when v is inside; wrapping a value into a period gives a value inside [lo,hi) that differs from it by a whole number of periods.", "quantifier": "all values and all ranges with lo<hi", "why_tests_cant": "Continuous domain; exact multiples of the period are corner cases.", "anchors": ["xo/numerical/math.h: clamp, clamped, wrap, pos_mod"]}
{"id": "C50", "title": "piecewise linear lookup interpolates its points", "statement": "A piecewise linear function and lerp_map return the stored value at every stored key, lie between the neighbouring values in between, and use the boundary value (or slope) outside the covered range; linear data is reproduced exactly.", "quantifier": "all sorted point sets, all arguments (exact arithmetic)", "why_tests_cant": "Continuous domain, arbitrary point sets.", "anchors": ["xo/numerical/piecewise_linear_function.h", "xo/numerical/interpolation.h: lerp, lerp_map, lerp_precise"]}
{"id": "C51", "title": "regression recovers exact lines", "statement": "When all points lie on a line, linear, median-based and equidistant regression return exactly that line.", "quantifier": "all lines and all point sets with at least two distinct abscissae (exact arithmetic)", "why_tests_cant": "Continuous domain, unbounded number of points.", "anchors": ["xo/numerical/regression.h"]}
{"id": "C52", "title": "polynomial evaluation", "statement": "Evaluating a polynomial object equals the sum of coefficient times power, for every coefficient list and argument.", "quantifier": "all coefficient lists and arguments (exact arithmetic)", "why_tests_cant": "Unbounded degree.", "anchors": ["xo/numerical/polynomial.h"]}
{"id": "C53", "title": "median is the middle of the sorted data", "statement": "median returns the middle element for odd sizes and the mean of the two middle elements for even sizes, regardless of the order of the data.", "quantifier": "all non-empty sequences", "why_tests_cant": "Unbounded sequences and permutations.", "anchors": ["xo/container/container_algorithms.h: median_slow, median_non_const"]}
{"id": "C54", "title": "quaternion rotation laws", "statement": "Quaternion multiplication is associative with the identity as unit; rotating by a product equals rotating successively; unit quaternions preserve lengths, dot products and orientation; conjugate undoes a unit rotation; inverse undoes multiplication for non-zero quaternions.", "quantifier": "all quaternions and vectors (exact arithmetic)", "why_tests_cant": "Continuous domain.", "anchors": ["xo/geometry/quat.h: operator*, conjugate, inverse"]}
{"id": "C55", "title": "transform composition and inversion", "statement": "Applying a composed transform equals applying the parts in sequence; inv and inv_trans undo a transform with unit rotation for points, orientations and transforms.", "quantifier": "all transforms with unit rotation (exact arithmetic)", "why_tests_cant": "Continuous domain.", "anchors": ["xo/geometry/transform.h: operator*, inv, inv_trans"]}
{"id": "C56", "title": "bounding boxes contain their contents and nothing tighter exists", "statement": "A bounding box accumulated from points contains each of them and is the smallest such box, independent of order; the bounding box of a transformed box or sphere contains every transformed point of it.", "quantifier": "all non-empty point sequences, all boxes and transforms (exact arithmetic)", "why_tests_cant": "Continuous domain, unbounded sequences.", "anchors": ["xo/shape/aabb.h: operator+=", "xo/shape/box.cpp: aabb, corners", "xo/shape/sphere.h: aabb"]}
{"id": "C57", "title": "splines pass through their control points", "statement": "A Catmull-Rom segment starts and ends in its two inner control points with matching end tangents, so a spline is continuous with a continuous derivative at segment joints.", "quantifier": "all control points (exact arithmetic)", "why_tests_cant": "Continuous domain.", "anchors": ["xo/geometry/catmull_rom.h: catmull_rom_segment, catmull_rom"]}
{"id": "C58", "title": "bounds operations are set operations", "statement": "clamp returns the nearest point of the interval, is_within holds exactly for points of the interval, extend gives the smallest interval containing both, violation is zero exactly inside.", "quantifier": "all intervals and values", "why_tests_cant": "Continuous domain.", "anchors": ["xo/numerical/bounds.h: clamp, is_within, extend, get_violation"]}
{"id": "C59", "title": "delayer returns its input delayed by a fixed number of steps", "statement": "A delayer with delay n returns at step k the input of step k-n, and its initial value before that.", "quantifier": "all delays and input sequences", "why_tests_cant": "The claim ranges over every finite history of calls; a test fixes one history and one size.", "anchors": ["xo/numerical/delayer.h"]}
{"id": "C60", "title": "ranges visit each value exactly once", "statement": "irange(b,e) visits b, b+1, ..., e-1 in order, a stepped range visits b, b+s, ... and terminates, and frange visits as many values as its size() says.", "quantifier": "all ranges", "why_tests_cant": "Infinite domain; termination for every step.", "anchors": ["xo/utility/irange.h", "xo/utility/frange.h"]}
{"id": "C61", "title": "test-case counters are consistent", "statement": "For every run, checks = passed + failed, run_tests returns the number of test cases with a failed check or exception, regardless of order.", "quantifier": "all histories of checks and exceptions", "why_tests_cant": "The claim ranges over every finite history of calls; a test fixes one history and one size.", "anchors": ["xo/system/test_case.cpp: check, run, run_tests"]}
{"id": "C62", "title": "descriptive statistics obey their definitions", "statement": "average, variance and standard deviation computed by the helpers equal the textbook definitions, top_average is the mean of the k largest elements, and sorted_indices is a permutation that sorts the data.", "quantifier": "all sequences (exact arithmetic)", "why_tests_cant": "Unbounded sequences.", "anchors": ["xo/container/container_algorithms.h: average, mean_var, top_average, sorted_indices"]}
{"id": "C63", "title": "vector algebra laws", "statement": "cross and dot products satisfy their defining identities (bilinearity, orthogonality, Lagrange identity), projection is idempotent and orthogonal, and mirroring is an involution compatible with rotation.", "quantifier": "all vectors and quaternions (exact arithmetic)", "why_tests_cant": "Continuous domain.", "anchors": ["xo/geometry/vec3.h: dot_product, cross_product, projection", "xo/geometry/mirror_tools.h: mirror"]}
{"id": "C64", "title": "shape text and scaling laws", "statement": "Converting a shape to a prop_node and back gives the same shape for all six shapes; scaling by f multiplies volumes by f cubed; moments of inertia scale linearly with density.", "quantifier": "all shapes, factors and densities (exact arithmetic)", "why_tests_cant": "Continuous domain.", "anchors": ["xo/shape/shape.cpp: to_prop_node, from_prop_node", "xo/shape/*.h: volume, inertia, scale"]}
{"id": "C65", "title": "colour conversions are coherent", "statement": "Converting a 24- or 32-bit colour to float components and back gives the same number; every colour constructed without alpha is opaque; hue values give the documented colours and are periodic.", "quantifier": "all 2^32 hex colours; all components (exact arithmetic)", "why_tests_cant": "2^32 values and continuous components.", "anchors": ["xo/utility/color.cpp, xo/utility/color.h"]}
{"id": "C66", "title": "reading includes terminates", "statement": "Loading a file with include directives terminates for every include graph, including cyclic ones: it returns a tree or reports an error.", "quantifier": "all finite or infinite include graphs", "why_tests_cant": "Cyclic include graphs of any length.", "anchors": ["xo/serialization/serialize.cpp: resolve_include_files", "xo/serialization/prop_node_serializer_zml.cpp"]}
{"id": "C67", "title": "unique directory names never collide", "statement": "create_unique_directory returns a path that did not exist before the call, for any set of existing directories.", "quantifier": "all sets of existing paths", "why_tests_cant": "Unbounded file system states.", "anchors": ["xo/filesystem/filesystem.cpp: find_unique_directory, create_unique_directory"]}
{"id": "C68", "title": "views and element search agree with their definition", "statement": "find, find_if, find_index, contains, any_of, none_of, count_if and the filtering view select exactly the elements satisfying the predicate, in order.", "quantifier": "all sequences and predicates", "why_tests_cant": "Unbounded sequences, arbitrary predicates.", "anchors": ["xo/container/container_tools.h", "xo/container/view_if.h"]}
{"id": "C69", "title": "wildcard matching follows the glob definition", "statement": "A pattern matches a string exactly if the string can be divided such that each * covers any run and each ? one character; pattern_matcher accepts a string exactly if one of its patterns matches.", "quantifier": "all patterns and strings", "why_tests_cant": "Unbounded strings; backtracking.", "anchors": ["xo/string/string_tools.cpp: pattern_match", "xo/string/pattern_matcher.h"]}
{"id": "C70", "title": "string slicing is total and exact", "statement": "left_str, right_str and mid_str with a non-negative length no longer than the string return exactly the first/last/middle characters; with a negative length they drop that many; they never fail for any length.", "quantifier": "all strings, all lengths", "why_tests_cant": "Unbounded strings and all integer lengths.", "anchors": ["xo/string/string_tools.cpp: left_str, right_str, mid_str"]}
{"id": "C71", "title": "waves are periodic", "statement": "The triangle wave and the square wave repeat with their period over the whole number line, stay within their range and have the documented value at every point of a period; converting a unit value to a byte gives a number from 0 to 255 and reproduces the 256 evenly spaced values.", "quantifier": "all arguments, all ranges with l<u (exact arithmetic)", "why_tests_cant": "Continuous unbounded domain; negative arguments are a corner case.", "anchors": ["xo/numerical/math.h: square_wave, triangle_wave, float_to_byte"]}
{"id": "C73", "title": "Euler angles describe the rotation they come from", "statement": "For each of the six orders, the quaternion of three Euler angles performs the three axis rotations in that order; angles in the principal range are recovered from the quaternion, and the Euler angles of any unit quaternion describe the same rotation.", "quantifier": "all angles, all unit quaternions, all six orders (exact arithmetic)", "why_tests_cant": "Continuous domain; six formulas each with a singular case.", "anchors": ["xo/geometry/quat.h: quat_from_euler, euler_xyz_from_quat and the other orders"]}
{"id": "C74", "title": "closest points, distances and intersections are the geometric ones", "statement": "The two points returned for a pair of lines lie on the lines and no other pair is closer; the distance from a point to a segment is the smallest distance to any of its points; the intersection of a line with a plane lies on both; the distance from the centre of a shape along a direction is where the ray leaves the shape.", "quantifier": "all lines, segments, planes, shapes and directions (exact arithmetic)", "why_tests_cant": "Continuous domain; degenerate positions.", "anchors": ["xo/geometry/line.h: closest_points", "xo/geometry/segment.h: distance", "xo/shape/shape_tools.h: intersection, distance_from_center"]}
{"id": "C75", "title": "volumes and moments of inertia are those of the solid bodies", "statement": "The volume of each shape is the volume of the set of its points, and the moments of inertia are the integrals of the squared distance to the axes over the body.", "quantifier": "all dimensions and densities (exact arithmetic)", "why_tests_cant": "Continuous domain; needs integration.", "anchors": ["xo/shape/*.h, xo/shape/box.cpp: volume, inertia"]}
{"id": "C72", "title": "Text of floating-point numbers and truth values", "statement": "to_str of a float or double writes the nearest decimal with at most six significant digits (relative error at most 5e-6), from_str reads the nearest number of the type, infinities, NaNs and signed zeros come back, and writing, reading and writing again gives the same text. A number, however small, survives writing and reading exactly if it is the number nearest to some decimal of six digits; every text fits the buffer; the six words for truth values are read and truth values come back.", "quantifier": "all finite magnitudes of both formats and both signs, all decimals of six digits, all texts", "why_tests_cant": "There are 2^64 doubles; sampling cannot show that rounding in two bases never changes a text or that exactly the six-digit decimals survive.", "anchors": ["xo/string/string_cast.cpp: to_str(float), to_str(double), to_str(bool), from_str(float&), from_str(double&), from_str(bool&)", "xo/string/string_tools.cpp: set_to_str_precision, to_str_precision"]}
{"id": "C76", "title": "Text of times", "statement": "to_str of a time writes a clock text (m:ss, or h:mm:ss from an hour on) that tells exactly the whole seconds from a minute or from the given limit on, and the seconds with the given number of decimals below; from_str reads the text of a time back to the precision written.", "quantifier": "all times in nanoseconds whose seconds fit an int, all numbers of decimals from 1 to 9, all limits", "why_tests_cant": "The boundaries between the forms depend on the whole value range and the round trip passes through decimal and binary rounding.", "anchors": ["xo/string/string_cast.cpp: to_str(time), from_str(time&)", "xo/time/time.h: time_from_seconds"]}
{"id": "C77", "title": "typed values survive in property nodes", "statement": "A typed value stored under a key of a property node is returned unchanged by every way of reading that key; a default is only used when the key is missing, never when its value is malformed; of several alternative keys the first one present counts; all values of a repeated key are returned in order; vectors, arrays and maps survive when their elements do.", "quantifier": "all property nodes, keys and values of every convertible type", "why_tests_cant": "Nesting, sizes and values are unbounded, and conversions compose.", "anchors": ["xo/container/prop_node.h: to_prop_node, from_prop_node, get, try_get, get_any, get_all, set", "xo/container/flat_map.h: to_prop_node, from_prop_node", "xo/string/string_cast.cpp"]}
{"id": "C78", "title": "geometric values survive in property nodes", "statement": "Vectors, quaternions, scales, transforms, shapes and intervals stored in a property node are read back as the same values; the list, group and text notations of a vector mean the same; Euler angles are read in the order that the node names; a malformed or incomplete value is refused.", "quantifier": "all values and all property nodes, for every component type with a text conversion", "why_tests_cant": "Conversions must hold for every number, key order and spacing.", "anchors": ["xo/geometry/vec3.h: from_prop_node, to_prop_node", "xo/geometry/quat.h: from_prop_node", "xo/geometry/scale3.h", "xo/geometry/transform.h", "xo/shape/shape.cpp", "xo/numerical/bounds.h"]}
{"id": "C79", "title": "text predicates, file-name parts and text stacks", "statement": "A text begins with, ends with or contains another exactly when it can be cut that way; changing the case changes only the letters; copying into a buffer stays inside it; folder, name and extension together are the file name; an identifier is tidied to its last component without surrounding underscores; a text stack is always the concatenation of what was pushed and not popped; dictionary lookups by name and by element are inverse.", "quantifier": "all texts, buffers, histories of pushes and pops, and dictionaries", "why_tests_cant": "Texts and histories are unbounded; the interesting cases are the empty pattern, names without separators and characters beyond ASCII.", "anchors": ["xo/string/string_tools.cpp: str_begins_with, str_ends_with, str_contains, to_lower, to_upper, copy_str, append_str, get_filename_ext, get_filename_without_ext, get_filename_folder, get_filename_without_folder", "xo/string/stack_string.h", "xo/string/dictionary.h", "xo/system/system_tools.cpp: tidy_identifier"]}
{"id": "C80", "title": "meaning of ZML macros, inline macros, references and includes", "statement": "In a ZML text, `$name` stands for what the latest definition of the name that is in scope says, a definition is in scope from there to the end of its group, `${name}` inside a text is replaced by the value of the macro while the text around it stays, `<< file >>` stands for the content of the file, whose name counts from the folder of the including file, and `@path` stands for a copy of what was read at the path before. Using an undefined name, referring to a path at which nothing was read, leaving `${` open, including a file that does not exist, or ending the text inside a comment is always reported as an error.", "quantifier": "all documents built from values, groups, arrays, extended values, definitions, references and includes, with any nesting, and all sets of files", "why_tests_cant": "Documents nest without bound, the meaning of a name depends on everything before it, and errors must be reported from every depth.", "anchors": ["xo/serialization/prop_node_serializer_zml.cpp: read_zml_layer, parse_zml, load_zml, get_zml_token"]}
{"id": "C81", "title": "queries that lead back to a node", "statement": "For a node that lies inside a tree, find_query_to_node finds it and gives the names on the way from the root joined by the delimiter; using that text as a query on the tree gives the node again. A node that is not inside the tree is not found. try_find_parent gives the node that has the given node as a child, and nothing for the root or a node of another tree.", "quantifier": "all trees, all nodes inside or outside them and all delimiters", "why_tests_cant": "queries depend on every name and on the shape of the whole tree above the node", "anchors": ["xo/container/prop_node_tools.cpp: find_query_to_node, make_prop_node_query", "xo/container/prop_node.cpp: try_find_parent, get_query"]}
{"id": "C82", "title": "options and plain arguments of a command line", "statement": "On a command line, an argument that begins with one or two dashes and is followed by a value is an option with that value, an argument with dashes that is not followed by a value is a switch, and all others are plain arguments in their order. Asking for an option by name gives its value, or the default if it is absent or cannot be read. The tree made from the arguments has exactly these options and plain arguments.", "quantifier": "all argument lists", "why_tests_cant": "the meaning of an argument depends on its neighbours, so every sequence of kinds of arguments matters", "anchors": ["xo/utility/arg_parser.h: arg_parser", "xo/container/prop_node_tools.cpp: prop_node_from_arg"]}
{"id": "C83", "title": "listings of trees and reports of unread nodes", "statement": "The text of a tree has one line per node, in depth-first order, with the name indented by the depth and the value at one common column. A report of unread nodes lists exactly the nodes that have unread nodes in or below them, marks those that are unread themselves, and is empty if everything has been read. Writing a listing or report changes nothing about the tree, not even which nodes count as read.", "quantifier": "all trees of any depth, with any nodes marked as read", "why_tests_cant": "the layout depends on the widest name at any depth of the tree, and the side effect shows only in later reports", "anchors": ["xo/container/prop_node.cpp: to_stream, to_str", "xo/container/prop_node_tools.cpp: log_prop_node, log_unaccessed, to_str_unaccessed"]}
{"id": "C84", "title": "the text of a node on one line", "statement": "The one-line text of a node, written as the value of a ZML item, is read back as the same node; so different nodes have different texts.", "quantifier": "all nodes with any names, values and children", "why_tests_cant": "the text nests to any depth and has to be a sequence of tokens that the reader takes apart in the same way", "anchors": ["xo/container/prop_node_tools.cpp: make_str_from_prop_node", "xo/serialization/prop_node_serializer_zml.cpp: prop_node_serializer_zml::read_stream"]}
{"id": "C85", "title": "averages, changes and digital filters", "statement": "A running average gives the weighted mean of the values added since the last reset, and is empty exactly if there are none. The change tracker gives the difference to the previous value. A digital filter satisfies its difference equation for every sequence of inputs: it is linear, causal and starts at rest; a low-pass filter lets constant inputs through and blocks alternating ones. A first-order filter always stays between its old value and the input, stays within the range of its inputs and settles at a constant input, independent of how the time is divided into steps.", "quantifier": "all sequences of values, weights, resets, coefficients and time steps", "why_tests_cant": "the output depends on the whole history of inputs, so the equations have to hold for every sequence", "anchors": ["xo/numerical/average.h: average", "xo/numerical/delta.h: delta", "xo/numerical/filter.h: iir_filter", "xo/numerical/filter_1st_order.h: filter_1st_order"]}
{"id": "C86", "title": "comparison with tolerance and points along a path", "statement": "Of two numbers, exactly one of 'smaller', 'equal up to the tolerance' and 'greater' holds, and the order of the arguments does not matter. The length of a path is the sum of the distances of its neighbouring points. Inserting a point at a given distance along the path puts exactly one point there, at that distance along the path and on the segment, and changes neither the other points nor the length; a point within the tolerance of that place is used instead of a new one.", "quantifier": "all numbers, tolerances, paths of any number of points in any dimension, and distances", "why_tests_cant": "the insertion walks along any number of segments, some of them of length zero", "anchors": ["xo/numerical/compare.h: equal", "xo/numerical/compare.h: less_or_equal", "xo/geometry/path_alg.h: path_length", "xo/geometry/path_alg.h: insert_path_point"]}
{"id": "C87", "title": "matrices and quaternions", "statement": "A matrix made from three axes takes the coordinates along these axes to the vector. The quaternion computed from a rotation matrix has length one and turns every vector exactly as the matrix does; the matrix with the axes of a quaternion gives that quaternion back, up to its sign.", "quantifier": "all unit quaternions and all rotation matrices, in particular half turns, where a naive formula divides by zero", "why_tests_cant": "the conversion has four branches whose choice depends on all numbers of the matrix, and each must give the same rotation", "anchors": ["xo/geometry/mat33.h: quat_from_mat33", "xo/geometry/mat33.h: mat33_from_axes", "xo/geometry/mat33.h: mat33_from_diagonal"]}
{"id": "C88", "title": "results, error messages and cached values", "statement": "A result shows what was assigned to it last: the value, or the error. Messages that are appended stand in the order in which they were appended, and an error that is in a message is not removed by appending. An error that is reported through an optional error code is in the error code of the caller, or thrown if the caller has none, and always logged. A cached value is computed once for each change of the time, and kept while the time is the same.", "quantifier": "all sequences of assignments and appended messages, all error texts, and all sequences of calls to a cached value with any times, including functions that throw", "why_tests_cant": "what a result shows depends on the whole history of assignments", "anchors": ["xo/utility/result.h: result", "xo/utility/result.h: error_message", "xo/system/error_code.h: error_code", "xo/system/error_code.cpp: set_error_or_throw", "xo/system/error_code.cpp: try_set_error", "xo/utility/cached_var.h: cached_var"]}
{"id": "C89", "title": "arrays, vectors and matrices of a dynamic size", "statement": "A dynamic array holds what a list holds after the same history of copies, moves, writes and changes of size; a moved array leaves an empty one. Vectors of equal size form a vector space under the operators, the dot product is symmetric, linear and positive, the distance is zero only between equal vectors, and a normalised vector has length one. An element of a matrix that is written is the one that is read. The product of a matrix and a vector has as elements the sums of the products of the rows with the vector.", "quantifier": "all sizes, elements and histories of calls on two arrays", "why_tests_cant": "the number of elements is free, and arrays are moved from and resized in every order", "anchors": ["xo/container/dynarray.h: dynarray", "xo/geometry/dynvec.h: dynvec", "xo/geometry/dynvec.h: dot_product", "xo/geometry/dynvec.h: normalize", "xo/geometry/dynmat.h: dynmat", "xo/geometry/dynmat.h: operator*"]}
{"id": "C90", "title": "recorded values, vectors in frames, channel means and covariances", "statement": "Every recorded value is kept, in order, in the channel of its label; values with different labels recorded one after the other share a frame, and a label that comes again starts a new frame; setting a value in a frame by label changes no other value and adds the channel if it is missing; a vector or rotation written into a frame is read back from the same labels; channel means and the covariance matrix equal their textbook definitions, and the covariance is symmetric and never negative along any direction.", "quantifier": "all sequences of recorded values and frames, all labels, all numbers (exact arithmetic)", "why_tests_cant": "Unbounded histories of frames and labels, and continuous data.", "anchors": ["xo/system/debug_storage.cpp: write_debug", "xo/container/storage.h: frame, const_frame", "xo/container/storage_tools.h: write, read", "xo/utility/data_algorithms.h: compute_channel_means, compute_covariance"]}
{"id": "C91", "title": "a storage written as text reads back", "statement": "Writing a storage as a text table and reading that text into an empty storage gives the same labels in the same order, and the same number of frames with the same values up to what the number format keeps.", "quantifier": "all storages with any number of channels and frames; all finite numbers", "why_tests_cant": "Unbounded tables and every floating-point value.", "anchors": ["xo/container/storage.h: operator<<, operator>>", "xo/serialization/char_stream.h: char_stream::operator>>"]}
{"id": "C92", "title": "typed indices and collections of several types", "statement": "The index (or handle) a collection gives for an added element addresses that element, is valid and differs from those of all other live elements of its type, whatever is added, changed or removed for other elements and other types; looping over a type's index span visits exactly the indices of its elements in order; the comparisons of indices are one total order, and a number outside the valid range gives an invalid index.", "quantifier": "all histories of adding, changing, removing and clearing, for any element types and any unsigned index type", "why_tests_cant": "Unbounded histories over several types.", "anchors": ["xo/utility/index.h: index_class, index_span", "xo/container/collection_ic.h: collection_ic", "xo/container/collection.h: collection"]}
{"id": "C93", "title": "dates as text", "statement": "A date written as text is read back as the same date; three numbers with any of the separators between them are read as year, month and day; sorting date texts sorts dates; a text that does not have three parts is refused and leaves the date unchanged.", "quantifier": "all dates with int fields; all texts", "why_tests_cant": "All 2^96 dates and unbounded texts.", "anchors": ["xo/time/date.h: to_str, from_str"]}
{"id": "C94", "title": "views over containers and streams over iterators", "statement": "A zipped loop sees the i-th elements of both sequences together and changes no others; a filtered view visits exactly the elements with the property, in order; numbers, vectors and quaternions written through an iterator stream are read back by a stream that starts at the same position.", "quantifier": "all sequences, predicates and sequences of written items", "why_tests_cant": "Unbounded sequences.", "anchors": ["xo/container/zip.h: zip", "xo/container/view_if.h: view_if", "xo/container/stream_wrapper.h: input_iterator_stream, output_iterator_stream, push_back_stream"]}
{"id": "C95", "title": "reading a file of values", "statement": "Reading a text file of values separated by white space gives all values in order; a file that cannot be opened, has no values or has text that is no value is reported as an error.", "quantifier": "all files and value types (integers, words, pairs)", "why_tests_cant": "Unbounded files.", "anchors": ["xo/serialization/container_io.h: operator>>, read_data"]}
{"id": "C96", "title": "accuracy of the fast arc cosine, rest-to-rest curves, angles and tabulated functions", "statement": "For every cosine from -1 to 1 the fast arc cosine is within one degree of the true angle, and it keeps the order, the symmetry and the range. The minimum-jerk curve is the only curve of degree five that goes from 0 to 1 and is at rest at both ends; it only rises. An angle has the same measure in degrees and in radians, and all arithmetic and the order agree in both units. A function evaluated over a range gives its value at each evenly spaced point.", "quantifier": "all real numbers, all polynomials of degree five, all angles, all ranges", "why_tests_cant": "The bound holds for a continuum of inputs; a sweep over samples says nothing about the points in between.", "anchors": ["xo/numerical/functions.h: fast_acos, minimum_jerk", "xo/numerical/function_tools.h: evaluate_function", "xo/geometry/angle_type.h: angle_", "xo/geometry/angle.h: sin, cos, tan", "xo/utility/arithmetic.h: arithmetic"]}
{"id": "C97", "title": "XML text of property trees", "statement": "Reading an XML document gives the tree of its first element: attributes and elements become children with their names, in order, and text becomes the value, with all references replaced by the characters they stand for; comments, declarations and document types are skipped. Any text is either read or refused, and never leads to an access outside the text. A tree of named nodes that have a value or children comes back from the XML text written for it; if the text was cut off anywhere, it is refused or gives the complete tree.", "quantifier": "all texts, all XML documents, all trees and all points at which writing was interrupted", "why_tests_cant": "Unbounded documents, nesting and texts; every prefix of every text.", "anchors": ["xo/serialization/prop_node_serializer_xml.cpp: read_stream, write_stream", "contrib/rapidxml-1.13/rapidxml.hpp: xml_document::parse", "contrib/rapidxml-1.13/rapidxml_print.hpp: print"]}
{"id": "C98", "title": "saving and loading trees by file name", "statement": "The format of a file follows from its extension. A tree that is saved is loaded again, through any history of saves and loads of other files, and no other file is changed. Unknown types, files that cannot be opened and files that cannot be created are reported. If saving is interrupted, loading the file gives an error or the whole tree.", "quantifier": "all file names, trees, histories of saves and loads, error codes and points of interruption", "why_tests_cant": "Histories and points of interruption are unbounded.", "anchors": ["xo/serialization/serialize.cpp: load_file, save_file, make_serializer, get_serializer_factory", "xo/serialization/prop_node_serializer.cpp: load_file, save_file"]}
{"id": "C99", "title": "Random numbers fill their interval and repeat from their seed", "statement": "A generator that is given a seed returns the same numbers each time, whatever it was used for before; different seeds give different numbers. Real numbers lie in the interval asked for, the upper end excluded; drawing a whole number ends and the number lies in the interval, ends included, with all numbers equally frequent. The engine takes every value from 1 to 2^31 - 2 exactly once before it repeats.", "quantifier": "all seeds, all numbers of draws, all intervals, all earlier uses of the generator", "why_tests_cant": "The period has more than two thousand million values, and no test runs through it for each seed.", "anchors": ["xo/numerical/random.h: random_number_generator::seed, uniform, uniform_int, uniform_vec3", "xo/numerical/random.h: random_number_generator_fast, random_number_generator_default_gcc"]}
{"id": "C100", "title": "A console plot shows each function", "statement": "Plotting functions over an interval draws a picture of the width and height asked for. Each function has its mark in every column, in the row nearest to its value there, unless a later function has the same row; rows where no function passes show the frame and the axes. Bad sizes and intervals give a message and no picture.", "quantifier": "all functions, all numbers of functions, all intervals, all widths and heights", "why_tests_cant": "The row of a mark comes from a rounded division by the range of all values; tests can only look at a few pictures.", "anchors": ["xo/numerical/console_plot.h: console_plot"]}
{"id": "C101", "title": "An object has one owner and is deleted once", "statement": "Whatever is done with unique pointers through cloning, releasing, moving and casting, every object that exists has exactly one owner, nothing is left over when no pointer owns anything, and a clone is an equal object that does not change with the original. A cast moves the object when it has the type and leaves it alone otherwise.", "quantifier": "all sequences of operations on all numbers of pointers, all class hierarchies", "why_tests_cant": "Leaks and double deletes depend on the history of moves; a test covers a few histories.", "anchors": ["xo/utility/memory_tools.h: clone, dereference_or_throw", "xo/utility/pointer_types.h: try_dynamic_unique_cast, dynamic_unique_cast"]}
{"id": "C102", "title": "Proxies stand for their values", "statement": "A proxy returns the value it was made from or last assigned, whatever other proxies are made or assigned. Two proxies are equal exactly when their values are equal.", "quantifier": "all histories of making, copying and assigning proxies, all values", "why_tests_cant": "Proxies share one table, so each operation could disturb every other proxy; the histories are unbounded.", "anchors": ["xo/utility/proxy.h: proxy"]}
{"id": "C103", "title": "The circular frame buffer keeps the newest frames", "statement": "After any number of frames were added and written, each of the newest frames that fit in the buffer reads back as written, by frame number, counted from the newest, or interpolated with the next frame.", "quantifier": "all capacities, all numbers of channels, all histories of added frames and writes", "why_tests_cant": "Frames overwrite each other after the buffer is full, at places that depend on the whole history.", "anchors": ["xo/container/deprecated/circular_frame_buffer.h: circular_frame_buffer"]}
{"id": "C104", "title": "Tables survive being written as text and read back", "statement": "A table of values with row and column labels that is written to a stream and read back has the same column labels, row labels and values, in the same order. Integer tables come back unchanged; each finite floating point number comes back as the number its printed text denotes. A text with two equal column labels or two equal row labels is refused. Reading ends for every text.", "quantifier": "every table with word labels, every text", "why_tests_cant": "Labels, cell counts and value texts are unbounded, and the stream states (good, eof, fail) interact across rows; tests only cover a few small tables.", "anchors": ["xo/container/table.h: operator<<, read_table, load_table, operator()"]}
{"id": "C105", "title": "File searches find the first existing candidate and exactly the matching entries", "statement": "Looking a file up among several paths or in several folders gives the first candidate that exists, absolute paths being taken as they are and relative ones in the given folder, or reports that there is none; every lookup ends. Listing files below a folder gives every entry within the allowed depth whose name is included and not excluded, each once, in listing order.", "quantifier": "every set of existing files, every list of candidates and folders, every directory tree, every pattern and depth", "why_tests_cant": "The candidates, trees and name patterns are unbounded; the corner cases (absolute names, names that only look absolute, depth limits) lie outside what fixture folders contain.", "anchors": ["xo/filesystem/filesystem.cpp: find_file, try_find_file, find_files, current_find_file_path"]}
{"id": "C106", "title": "Searches through all levels of a property tree, and references to its nodes", "statement": "try_find_child_recursively gives the first node with the key in the order in which a node comes before what is below it, and nothing only if no node on any level has the key; has_any_key and get_any_child look for the keys in the given order. add_child, add_children, append, insert and get_or_add_child put the new children where they say and keep the others, and the reference they return refers to the child they are about. A reference to a child stays valid, and refers to the same child, when more children are added.", "quantifier": "all trees, keys, and sequences of additions, for all ways in which the vector may grow", "why_tests_cant": "A test builds a few trees and rarely holds a reference while the tree grows; whether a stale reference is noticed depends on the allocator.", "anchors": ["xo/container/prop_node.cpp: try_find_child_recursively, has_any_key, get_any_child, add_child, add_children, insert, append, get_or_add_child", "xo/container/prop_node.h: reserve, operator="]}
{"id": "C107", "title": "Text files: saving, appending, loading, copying and removing", "statement": "A text that was saved is what is loaded afterwards, under every path of the same place, until the next change of that file; appending adds to the end. Missing directories above the file are made, and nothing else on the disk changes. After any sequence of saving, appending, copying and removing, the files are those that the successful calls give, and a call that reports an error has changed no file. A file that cannot be opened, written completely, or copied is reported as an error.", "quantifier": "all disks, paths, texts and sequences of calls, for all refusals of the system, and for disks that become full at any character", "why_tests_cant": "Tests run on one healthy disk with a few paths; they do not see a full disk, a refused call, paths that name the same place, or a directory in place of a file.", "anchors": ["xo/filesystem/filesystem.cpp: load_string, save_string, append_string, copy_file, remove, create_directories"]}
{"id": "C108", "title": "The report of the profiler", "statement": "A report shows every section whose parents all took at least the given part of the total exactly once, below its parent, siblings with falling total times; a section that took less is shown without what is below it. Each line has the name of the section, its total and exclusive time, how often it was entered, and the overhead, which is the estimate for each time the section or one below it was entered. The tag for the log tells whether the section alone took less than 1, 5 or 15 percent. A report stops a running measurement, and it is an error if a section is still open.", "quantifier": "all trees of sections, thresholds, estimates, and all orders in which equal times may be sorted", "why_tests_cant": "Tests look at one report of one run, with times that differ from run to run.", "anchors": ["xo/system/profiler.cpp: report, report_section, get_children, total_overhead, exclusive_time", "xo/system/profiler.h: root"]}
{"id": "C109", "title": "What sinks write to the console, to streams and to files", "statement": "A log message reaches each sink whole. The console shows every nonempty line of it on a line of its own behind the prefix with time and level; however many threads log to the console, messages are never mixed and each thread's messages stay in order. A file or stream sink writes time, message and end of line, for every message between its construction and its destruction.", "quantifier": "all messages, levels, formats, numbers of threads, schedules and lives of a sink", "why_tests_cant": "A test logs from one thread or sees a few schedules; mixing of output and messages during construction need particular interleavings", "anchors": ["xo/system/log_sink.cpp: console_sink, stream_sink, file_sink, sink::sink, sink::~sink", "xo/system/log.cpp: log_string, log_vstring", "xo/system/log_format.h: get_log_prefix", "xo/system/log_level.h: level_names_short"]}
{"id": "C110", "title": "Reading numbers, characters and lines from a text", "statement": "A text reader never looks outside its text, its position never goes back, a failure stays, and the end is reported only there. Numbers separated by delimiters are read in order with their exact values; reading fails exactly where no number stands. Line numbers count the line ends passed and never decrease. Searching finds the first occurrence. Taking characters or lines in a loop gives the text.", "quantifier": "all texts, delimiters, integer types, arguments and histories of operations", "why_tests_cant": "A test reads a few well-formed texts; out-of-range numbers, zeros inside texts and histories with failures are unbounded", "anchors": ["xo/serialization/char_stream.h: operator>>, getc, peekc, skip_delimiters, process_end_pos", "xo/serialization/char_stream.cpp: get_line, line_number, seek, seek_past, try_get"]}
{"id": "C111", "title": "The part of a rotation around an axis; pitch, yaw and roll", "statement": "The rotation around a unit axis that is contained in a rotation is a rotation around that axis by the reported angle, the rest does not turn around the axis, and both together are the whole. A rotation around the axis gives back its own angle. All variants agree. Pitch, yaw and roll are the angles of the turned axes in the coordinate planes, and the rotation can be rebuilt from them.", "quantifier": "all quaternions, unit axes and angles over the real numbers", "why_tests_cant": "A test compares a few rotations; singular cases and sign ambiguities are a continuum", "anchors": ["xo/geometry/quat.h: quat_angle_around_axis, quat_angle_around_axis_fast, rotation_around_axis, rotation_around_x, rotation_around_y, rotation_around_z, rotation_vector_angle_from_quat, pitch, yaw, roll"]}
{"id": "C112", "title": "Settings survive a restart of the program", "statement": "When saving settings returns, a later program with the same description that creates settings from that file gets the same value for every setting, whatever was set, loaded, saved and reset before; loading makes every setting what the file says; settings without a file read their defaults; and a file that is loaded or saved keeps what it says.", "quantifier": "all descriptions of settings, files, versions and histories of create, set, load, save and reset, including ones that throw", "why_tests_cant": "Whether a value comes back depends on the whole history of calls and files, on the form in which values are written, and on the structure of the description.", "anchors": ["xo/system/settings.cpp: settings::settings, load, save, set_recursive, reset", "xo/system/settings.h: settings"]}
{"id": "C113", "title": "Test cases may run in parallel", "statement": "However the threads of test cases that run in parallel take turns, all of them come to an end, each with the same results and the same lines in the log (in the same order) as when it runs by itself, as many tests fail as when they run one after the other, lines of different test cases are not written at the same time, and the log shows an error for a test case exactly if it counts as failed.", "quantifier": "all lists of test cases, all checks and exceptions in them, all schedules", "why_tests_cant": "The lines and counters come from threads whose steps interleave in far too many ways to try; a missing lock or a deadlock shows only in some of them.", "anchors": ["xo/system/test_case.cpp: test_case::run, check, try_run_func, run_tests, run_tests_async"]}
{"id": "C114", "title": "Timers that count ticks show the time", "statement": "A timer on a clock of any frequency shows the time since it was started, rounded down to nanoseconds, for as long as that time can be represented; it never goes back; a paused timer stands still; setting a timer and reading it at once gives the time up to one tick; and tick_count counts the ticks it shows.", "quantifier": "all frequencies, readings of the counter, and times", "why_tests_cant": "The product of ticks and nanoseconds leaves 64 bits only after hours or days, and at frequencies that the test machine does not have.", "anchors": ["xo/time/timer.cpp: get_time_from_ticks, get_ticks_from_time, timer", "xo/time/deprecated/timer_v1.cpp: windows_performance_counter_clock::now", "xo/time/deprecated/timer_v1.h: timer_v1"]}
{"id": "C115", "title": "Texts are read token by token for any delimiters, quotation marks and operators", "statement": "A text made of words, words in quotation marks and operators, with delimiters between them where needed, is read back as exactly these; where several operators begin the longest is taken; without quotation marks nothing but delimiters is skipped in any text, and every token makes progress.", "quantifier": "all sets of delimiters, quotation marks and operators, all texts", "why_tests_cant": "The sets are chosen by the caller and interact: operators that begin alike, words next to operators or quotation marks, empty tokens.", "anchors": ["xo/serialization/char_stream.cpp: get_token, check_operator, set_operators, set_delimiter_chars, set_quotation_chars"]}
{"id": "C116", "title": "Functions of numbers", "statement": "Powers, midpoints, absolute values, signs, parity, bytes, roots and rounding to decimals are those of mathematics: power is the integer power, also for negative exponents; the midpoint lies halfway between its arguments; rounding to decimals gives a multiple of the last decimal at most half a unit away, is idempotent, monotone and odd; signed_sqrt inverts x*|x|; bytes reassemble to the value.", "quantifier": "all numbers, exponents, widths, bit positions and numbers of decimals", "why_tests_cant": "Tests use small positive samples; the failing cases are extreme or reversed arguments.", "anchors": ["xo/numerical/math.h: power, midpoint, abs, sign, signum, same_sign, is_even, is_odd, is_whole, round_decimals, get_byte, signed_sqrt, invsqrt", "xo/numerical/polynomial.h: intersect_y"]}
{"id": "C117", "title": "Smooth clamp", "statement": "smooth_clamped leaves values between lb and ub as they are, keeps every result strictly between min and max and reaches every such number, is strictly increasing, never enlarges distances, and is twice continuously differentiable (C2) for lb in [min,ub] and ub in [lb,max].", "quantifier": "all values and limits", "why_tests_cant": "Smoothness and monotonicity are statements about all real numbers.", "anchors": ["xo/numerical/math.h: smooth_clamped"]}
{"id": "C118", "title": "Tables by label", "statement": "A table that is used only by row and column labels is a map: looking at a pair of labels gives the value put there last, or the default; rows and columns appear in the order of their first use; the result does not depend on which argument the compiler evaluates first; looking does not change the table.", "quantifier": "all histories of reads and writes by labels and all evaluation orders", "why_tests_cant": "The growing of rows and columns moves every cell, in every order; tests see one compiler's evaluation order.", "anchors": ["xo/container/table.h: operator(), get_or_add_row, get_or_add_column, back_row", "xo/container/label_vector.h: label_vector<void>"]}
{"id": "C119", "title": "Values between frames", "statement": "For every place from the first to the last frame of a storage and every channel, the interpolated value lies on the line between the two neighbouring frames, and is the value of the frame at a whole number; other places and channels are errors.", "quantifier": "all storages, places and channels", "why_tests_cant": "The places form a continuum and the borders (last frame, last channel) are easily missed.", "anchors": ["xo/container/storage.h: get_interpolated_value"]}
{"id": "C120", "title": "Comparing floating-point values, with NaN and infinities", "statement": "For all floating-point values: min, max and clamp return one of their arguments, in range and independent of the order of the arguments; a running minimum or maximum is that of the numbers seen; an interval extended by values contains what it contained and all of them; a value equals itself; abs is never negative.", "quantifier": "all values of the type, including infinities, zeros with a sign and NaN, and all sequences of values", "why_tests_cant": "Tests use a few finite numbers; the surprising results need NaN, infinities or a negative zero at a certain place of a sequence.", "anchors": ["xo/numerical/math.h: min, max, clamp, abs, sign, signum, same_sign, set_if_smaller, set_if_bigger, set_if_different", "xo/numerical/bounds.h: extend, is_within", "xo/numerical/compare.h: equal"]}
{"id": "C121", "title": "Values between two floating-point numbers, with rounding", "statement": "The midpoint, the mean of two values, the centre of an interval and interpolated values with a parameter from zero to one lie between the two values after rounding; the parameters zero and one give the two values; a larger parameter never gives a smaller result.", "quantifier": "all pairs of finite values of float and double (and wider types), and all parameters", "why_tests_cant": "Rounding errors and overflow show only for pairs of certain magnitudes; the pairs cannot be enumerated.", "anchors": ["xo/numerical/math.h: midpoint", "xo/numerical/interpolation.h: lerp", "xo/numerical/bounds.h: center", "xo/container/container_algorithms.h: median"]}
{"id": "C122", "title": "Wrapped floating-point values, with rounding", "statement": "A wrapped value lies in the half-open range from the lower to the upper limit after rounding, and differs from the value by a multiple of the length of the range.", "quantifier": "all finite values and limits of float and double (and wider types)", "why_tests_cant": "The result is wrong only for values that are tiny or huge compared to the range.", "anchors": ["xo/numerical/math.h: wrap, wrapped, pos_mod"]}
{"id": "C123", "title": "Sums and averages of floating-point values, with rounding", "statement": "The average of a container lies between its smallest and largest value and does not depend on the order of the values; larger values never give a smaller average; the average of whole numbers is the mean rounded once; the average of nothing is an error.", "quantifier": "all containers of finite values of float and double (and wider types)", "why_tests_cant": "Rounding errors build up over the sequence; the sequences cannot be enumerated.", "anchors": ["xo/container/container_algorithms.h: accumulate, average"]}
{"id": "C124", "title": "Colour components and bytes, with rounding", "statement": "Every colour number of 24 or 32 bits survives the conversion to components of type float and back; every component becomes the nearest of the 256 bytes, with values outside of zero to one limited; a larger component never gives a smaller byte.", "quantifier": "all colour numbers and all values of type float, including infinities and NaN", "why_tests_cant": "There are 2^32 colour numbers and 2^32 values of type float; one rounding in the wrong direction changes a colour.", "anchors": ["xo/numerical/math.h: float_to_byte, round_cast, clamped", "xo/utility/color.cpp: color_from_hex_rgb, color_from_hex_rgba, hex_rgb_from_color, hex_rgba_from_color"]}
{"id": "C125", "title": "Collections as text", "statement": "The text of a collection shows which collection it is: different vectors, vectors of vectors to any depth and sets have different texts. A vector of numbers that is written to a stream and read into a vector of the same size is the same vector; a longer one keeps its other elements and the stream reports the failure.", "quantifier": "all vectors and sets of numbers or texts, every depth of nesting, every earlier content of the vector that is read", "why_tests_cant": "Two collections with the same text are a pair of inputs; a test looks at one at a time.", "anchors": ["xo/string/string_cast.h: container_to_str, to_str( vector<T> )", "xo/container/flat_set.h: to_str( flat_set )", "xo/geometry/dynvec.h: operator<<, operator>>"]}
{"id": "C126", "title": "Names of types", "statement": "The tidy name of a type, under which a factory registers it by default, is its own name without the namespaces and classes around it and without its template arguments.", "quantifier": "all names made of any number of scopes, a name and any template arguments", "why_tests_cant": "Which names occur depends on the program that uses the library; the library's tests only name a few of its own types.", "anchors": ["xo/system/system_tools.cpp: tidy_type_name", "xo/system/system_tools.h: get_clean_type_name", "xo/utility/factory.h: register_type, factory_registrant"]}
{"id": "C127", "title": "Special characters and formatted text", "statement": "Replacing special characters puts plain letters in the place of each accented letter and leaves every other character where it is, so that only plain characters are left; doing it again changes nothing. A formatted text is complete.", "quantifier": "all texts", "why_tests_cant": "Every character can stand next to every other one, and a replacement could hold a character that a later step replaces again.", "anchors": ["xo/string/string_tools.cpp: replace_special_chars, stringf"]}
{"id": "C128", "title": "What the system says about itself", "statement": "The directory of the application is the one that holds the running program; the directories for settings, documents and temporary files are those the environment names; after the current directory was changed it is the new one; the name of the computer is the one it was given.", "quantifier": "all answers of the operating system, including missing variables and names of every length", "why_tests_cant": "A test runs on one computer with one environment.", "anchors": ["xo/filesystem/filesystem.cpp: get_config_dir, get_documents_dir, get_application_dir, temp_directory_path, current_path", "xo/system/system_tools.cpp: get_computer_name"]}
{"id": "C129", "title": "Reading a colour from a property node", "statement": "A colour given as hexadecimal number of six or eight digits, with capital or small letters, has the bytes of that number. One given as rgb with three numbers has these numbers divided by 255, one given as hsv is the colour of that hue, saturation and value. One given by components has these components, by name or by place. Every other text is refused, a refused colour leaves the variable unchanged, and no exception is thrown.", "quantifier": "every property node, text, number and former colour", "why_tests_cant": "texts, separators, digits and components are unbounded, and one test reads only a few of them", "anchors": ["xo/utility/color.cpp: from_prop_node(const prop_node&, color&)", "xo/utility/color.h: color::from_hex_rgb", "xo/string/string_tools.cpp: split_str"]}
{"id": "C130", "title": "A buffer of frames under every operation", "statement": "A buffer with a fixed number of frames and channels behaves as a list of frames, the oldest first and the one being filled last: a step appends a frame of zeros, or once the buffer is full the oldest frame with its values, setting and clearing change the last frame only, a reset leaves one frame of zeros, channels and frames can be added until the first step and are refused without effect afterwards, and the numbers returned are those of the new channel or frame.", "quantifier": "every shape and every history of setting, clearing, stepping, resetting, resizing and adding channels and frames", "why_tests_cant": "histories and shapes are unbounded; wrapping, stale values and a changed stride only meet in long histories", "anchors": ["xo/container/circular_buffer.h: circular_buffer", "xo/container/circular_buffer.h: circular_buffer::resize", "xo/container/circular_buffer.h: circular_buffer::clear_back"]}
{"id": "C131", "title": "Piecewise linear functions with rounding", "statement": "With the rounding of the floating-point type, a piecewise linear function holds one point per key with the value given last, passes through its points, stays between the values of neighbouring points, and does not fall where its values do not fall. The same holds for interpolation in a map, which keeps the first and last value outside.", "quantifier": "every sequence of inserted points, every key, float and double", "why_tests_cant": "the numbers of a type and the sequences of points are far too many to try, and rounding errors show only for some of them", "anchors": ["xo/numerical/piecewise_linear_function.h: piecewise_linear_function", "xo/numerical/interpolation.h: lerp_map", "xo/container/flat_map.h: flat_map::operator[]"]}
{"id": "C132", "title": "Arithmetic with vectors of four numbers", "statement": "Adding, subtracting, negating, multiplying and dividing vectors of four numbers does to each of the four numbers what it does to that number alone, in every sequence of such operations. Access by index reaches each number. The length is the square root of the sum of the four squares and grows with a factor.", "quantifier": "every vector, every sequence of assignments, every index", "why_tests_cant": "the sequences of operations are without bound and the laws are about all numbers", "anchors": ["xo/geometry/vec4_type.h: vec4_", "xo/geometry/vec4.h: operator+, operator-=, operator*, operator/"]}
{"id": "C133", "title": "Scales and element by element operations", "statement": "Multiplying and dividing a vector by scales acts element by element, undoes itself where no element is zero, and does not depend on the order of a sequence of scalings. Comparison, absolute value, clamping, Manhattan length, comparison with a tolerance and mirroring act on each element. Comparison with a tolerance does not depend on which vector comes first.", "quantifier": "every vector, every scale, every sequence of scalings, every tolerance", "why_tests_cant": "the sequences of scalings are without bound and the laws are about all numbers", "anchors": ["xo/geometry/scale3.h: scale3_", "xo/geometry/vec3.h: manhattan_length, abs, clamp, equal, is_normalized", "xo/geometry/vec3_type.h: vec3_::axis, vec3_::operator[]", "xo/geometry/mirror_tools.h: mirror_if, mirrored_if, mirror"]}
{"id": "C134", "title": "A bounded value stays within its bounds", "statement": "A bounded value lies within its bounds after every sequence of constructions and assignments. A value within the bounds is stored. A value outside is refused and the old value stays.", "quantifier": "every pair of bounds, every sequence of uses, every value", "why_tests_cant": "the sequences of uses are without bound, and undefined behaviour does not show in a test", "anchors": ["xo/numerical/bounded.h: bounded", "xo/time/deprecated/date_time.h: date_time"]}
{"id": "C135", "title": "Averages and variances of whole numbers", "statement": "The average of whole numbers is their exact average rounded towards zero, and lies between the smallest and the largest. The variance is the exact one rounded down. An average with an operation is the fold of the operation over the elements, divided by their number. The average of nothing is refused.", "quantifier": "every list of numbers, every type of whole numbers with or without sign, every operation", "why_tests_cant": "overflow depends on the numbers, their order and the type, and undefined behaviour does not show in a test", "anchors": ["xo/container/container_algorithms.h: accumulate, average, mean_var, mean_std"]}
{"id": "C136", "title": "A first-order filter stays within its inputs, with rounding", "statement": "With float or double values as they are, every update of filter_1st_order gives a finite number between the old value and the input, if the factor (rate times dt, or the exponential) is from zero to below one; so for every history of updates and assignments all values stay within the range of the inputs. An input equal to the value changes nothing, and a steady input is approached.", "quantifier": "all finite values, inputs, rates and time steps of both formats, all histories of calls", "why_tests_cant": "Rounding of a difference can make an update overshoot by one unit; only a proof over all numbers shows that this never happens for factors below one.", "anchors": ["xo/numerical/filter_1st_order.h: filter_1st_order::operator(), update_accurate, update_fast, set_value, set_rate, value"]}
{"id": "C137", "title": "Means, variances and weighted averages with rounding", "statement": "mean_var of finite floating-point numbers never gives NaN and never a negative variance; with the opposite values it gives the opposite mean and the same variance; for whole numbers of moderate size with a whole mean the mean is exact and the variance is the nearest number; equal values have variance zero. An average_ to which values are added with the default weight gives their average, and of one value with any weight it gives that value.", "quantifier": "all lists of floating-point numbers of both formats", "why_tests_cant": "Negative variances from rounding show up only for special values; signs, infinities and all lengths of lists must be covered.", "anchors": ["xo/container/container_algorithms.h: mean_var, average, accumulate", "xo/numerical/average.h: average_::add, get, empty"]}
{"id": "C138", "title": "Random numbers between two bounds, with rounding", "statement": "uniform( a, b ) and each component of uniform_vec3( a, b ), with rounding, never give a number below a, above b, infinite or NaN, for every engine with up to 2^32 values and every state of it, if b - a is not too big for the type; the number is below b; equal bounds give that bound.", "quantifier": "all finite bounds of both formats, all engines, seeds, states and sequences of calls", "why_tests_cant": "A number outside of the bounds would occur for one of billions of states; tests with some seeds cannot exclude it.", "anchors": ["xo/numerical/random.h: random_number_generator_::uniform, uniform_vec3"]}
{"id": "C139", "title": "Writing the values of a function to a file", "statement": "write_function writes one line for each of min, min + interval, min + 2 * interval, ..., as far as these are not above max, with the value of the function at that number; it ends, the numbers rise strictly, and the last one is max if max is met. A file that cannot be created throws.", "quantifier": "all functions, all bounds and intervals of float, double and int", "why_tests_cant": "Rounding accumulates over the loop, so that whether it ends, and where, depends on the bounds and the interval.", "anchors": ["xo/system/debug_storage.h: write_function", "xo/numerical/compare.h: less_than_or_equal"]}
{"id": "C140", "title": "The accurate random number generator", "statement": "The numbers of the accurate generator depend on the seed alone, whatever was drawn before seeding. Two generators with different seeds never come into step: in any 624 draws in a row some number differs, and generators that agree on 624 draws in a row agree on all of them. The generator is never stuck: in any 625 draws in a row there are two different numbers. Each number of 32 bits can occur. Whole numbers from an interval are inside it and equally many numbers of the engine lead to each of them.", "quantifier": "all seeds, all states of the generator, all histories of calls, all positions in the sequence, all intervals of up to 32 bits", "why_tests_cant": "The generator has 2^19937 states; a test sees a few draws of a few seeds.", "anchors": ["xo/numerical/random.h:random_number_generator_accurate", "xo/numerical/random.h:random_number_generator_"]}
{"id": "C141", "title": "Times as numbers of seconds, with rounding", "statement": "A time as a number of seconds, milliseconds or nanoseconds, and made from that number again, is the same time. The number is accurate to one part in 2^51 for every time, a later time is never a smaller number, and a larger number never gives an earlier time. Scaling a time by one does not change it. Numbers beyond the range of times, infinities and NaN have no defined time.", "quantifier": "all times of 64 bits, all numbers of type float and double, with the rounding of the type", "why_tests_cant": "A test tries round times such as one second; the last bit of 2^64 times depends on four roundings.", "anchors": ["xo/time/time.h:time::seconds", "xo/time/time.h:time::milliseconds", "xo/time/time.h:time_from_seconds", "xo/time/time.h:time_from_milliseconds", "xo/time/time.h:time_from_nanoseconds", "xo/time/time.h:time::operator*"]}
{"id": "C142", "title": "Children selected by key or by pattern", "statement": "A loop over the children of a node that are selected by key visits exactly the children with that key, in the order of the node: as many as count_key tells, none if the node does not have the key, and first the child that is found by key. A loop over those selected by a pattern visits exactly the children whose key matches it. A child that is added comes last among its key, erasing a key takes away the first one only, and other selections do not change.", "quantifier": "all nodes, keys and patterns (for patterns: without brackets)", "why_tests_cant": "A test has nodes with a few children; the loop has to skip any number of children at any place, also at both ends.", "anchors": ["xo/container/prop_node.h:prop_node::select", "xo/container/prop_node.h:prop_node::select_pattern", "xo/container/view_if.h:view_if"]}
{"id": "C143", "title": "Log messages survive a crash", "statement": "If the program stops at any point, each sink has kept a beginning of the messages it accepted, in order and without gaps. Consoles, streams and files have kept every message whose call had returned. Once error, critical or flush has returned, every sink that has a flush has kept all messages so far, and messages of the level error or above are always flushed, whichever function logged them.", "quantifier": "all sinks of all kinds, levels, compile-time levels, sequences of log calls, and all points at which the program may stop", "why_tests_cant": "A test cannot stop a program at every point between the steps of a call, nor for every mix of sinks and levels.", "anchors": ["xo/system/log.h: message, error, critical, flush", "xo/system/log.cpp: log_vstring, flush, errorf, criticalf", "xo/system/log_sink.cpp: stream_sink::hande_log_message, stream_sink::flush"]}
{"id": "C144", "title": "Lengths and unit vectors, with rounding", "statement": "The length of a vector or quaternion is exact up to a few rounding errors. Normalising gives a vector of the same direction whose length is one up to rounding, which is_normalized accepts, and returns the previous length.", "quantifier": "all vectors and quaternions of finite floating-point components, for float and double, with rounding, underflow and overflow", "why_tests_cant": "Rounding errors of all combinations of components cannot be tried; a test shows single values.", "anchors": ["xo/geometry/vec3.h: length, normalize, is_normalized", "xo/geometry/quat.h: length, normalize, is_normalized", "xo/numerical/compare.h: equal"]}
{"id": "C145", "title": "Many rotations, with rounding", "statement": "Multiplying rotations in float or double arithmetic stays close to the exact product: one product is within about eight roundings of the product of quaternions, and after any number n of factors whose length is within d of one the result is finite, its length is within 2 n (d + 10 roundings) of one and it is within 40 n roundings of the exact product. A vector that is rotated by such a quaternion is close to the vector of the exact rotation, so that its length stays the same up to roundings.", "quantifier": "all finite quaternions and vectors, all lists of factors as long as the bound stays below one quarter, and both formats", "why_tests_cant": "rounding errors of a history of products add up, and tests look at a few short histories with a tolerance", "anchors": ["/repo/xo/geometry/quat.h: operator*( quat, quat ), operator*( quat, vec3 ), operator*=", "/repo/xo/geometry/vec3.h: cross_product, operator+, operator*="]}
{"id": "C146", "title": "Files survive a program that ends and several programs", "statement": "A program can end at any point of saving, appending, copying or removing a text file, and several programs can use the same file at the same time. A program that ends leaves every other file as it was; the file it was working on holds what it held or the new contents, completely. Texts that several programs append are all in the file, each in order; when several programs save to one file, it holds one of their texts afterwards.", "quantifier": "all histories of calls, all points at which a program can end, all numbers of programs, all orders of their steps and all sizes of the pieces in which a text is written", "why_tests_cant": "a test cannot stop a program between any two steps, nor choose the order of the steps of several programs", "anchors": ["/repo/xo/filesystem/filesystem.cpp: save_string, append_string, copy_file, remove"]}
{"id": "C147", "title": "An orientation that is normalised with the fast function after each turn never drifts", "statement": "Normalising a quaternion whose length is near one with normalize_fast keeps its direction up to rounding and squares the error of its length. A program that multiplies an orientation by any number of rotations of nearly unit length and calls normalized_fast after each keeps a finite orientation whose length stays within a bound that does not grow with the number of steps. normalize_try_fast with its default epsilon gives length one up to rounding on both of its branches.", "quantifier": "every float or double quaternion near unit length, every list of rotations of any length, and for normalize_try_fast every quaternion with moderate components and a length above epsilon", "why_tests_cant": "A drift shows only after millions of steps, and the rounding depends on the operands of each step; tests run a few steps and compare with a tolerance.", "anchors": ["xo/geometry/quat.h: normalize_fast, normalized_fast, normalize_try_fast, normalized_try_fast, operator*"]}
{"id": "C148", "title": "Iterators of a circular deque", "statement": "A loop from begin() to end() visits each element once and in order. An iterator that is kept stays at its element, compares equal to begin() + k for the place k of its element, and reaches end(), through any calls that neither remove the element nor make the buffer grow. it++ gives the former iterator.", "quantifier": "every deque reachable by pushes and pops, every element, every history of calls while the iterator is kept", "why_tests_cant": "Whether an index has passed the end of the buffer depends on the whole history of pushes and pops; tests iterate over fresh deques.", "anchors": ["xo/container/circular_deque.h: circular_deque::iterator_impl, begin, end, push_back, push_front, pop_back, pop_front"]}
{"id": "C149", "title": "Transforms with rounded numbers", "statement": "With float and double, a point moved by a transform, moved back, or moved by the product of any number of transforms is finite and close to the point of the exact movements. Moving there and back gives the point again up to roundings. The error of a chain grows no faster than the number of transforms for the point and its square for the shifts.", "quantifier": "both float types, every transform with a rotation of nearly unit length, every point, every number of transforms within an inverse of the precision", "why_tests_cant": "The error of a chain depends on all roundings of a history of any length; tests compare a few literal transforms with a tolerance.", "anchors": ["xo/geometry/transform.h: transform_::trans, inv_trans, inverse, operator*", "xo/geometry/quat.h: operator*", "xo/geometry/vec3.h: operator+"]}
{"id": "C150", "title": "Long sums with rounded numbers", "statement": "With float and double, the sum, mean, dot product, length and distance of vectors of any size, the value of a polynomial of any degree, the weighted mean, the variance and the standard deviation of any number of values are finite and differ from the exact values by a number of roundings in proportion to the number of terms. Vectors of different sizes and statistics of no values are refused.", "quantifier": "both float types, every number of terms up to an eighth of the inverse precision, all finite values whose sums stay in range", "why_tests_cant": "The error depends on every value and on the number of values; tests use a handful of short vectors.", "anchors": ["xo/geometry/dynvec.h: squared_length, length, dot_product, distance", "xo/numerical/polynomial.h: operator()", "xo/numerical/average.h: add, get", "xo/container/container_algorithms.h: average, mean_var, mean_std"]}
{"id": "C151", "title": "Digital filters with rounded numbers", "statement": "With float and double, the output of a stable filter of second order stays finite and bounded for inputs of any length, and its difference from the exact filter with the same coefficients does not grow with the length. After the input has ended the output comes to rest at zero.", "quantifier": "both float types, all coefficients whose poles are far enough inside the unit circle, all bounded inputs of any length", "why_tests_cant": "Rounding errors feed back into every later output; only an argument over all histories shows that they do not build up.", "anchors": ["xo/numerical/filter.h: iir_filter::operator()"]}
{"id": "C152", "title": "Colour gradients", "statement": "A gradient made from colours at given values shows each colour at its value, the colour of the smallest or largest value outside, and between two neighbouring values a colour whose components are a few roundings away from the straight line. Colours with components from zero to one give components from zero to one at every value. The order in which the colours are given does not matter. A gradient without colours is refused.", "quantifier": "every list of colours with different finite values and components from zero to one, every value, float and double", "why_tests_cant": "the colours, values and roundings are too many to try, and the result at a jump depends on the sort of the library", "anchors": ["xo/utility/color_gradient.h: color_gradient", "xo/numerical/interpolation.h: lerp_map, lerp", "xo/utility/color.h: operator*, operator+, operator-", "xo/container/flat_map.h: flat_map( initializer_list ), sort"]}
{"id": "C153", "title": "Dates with a time of day are in order", "statement": "Of two moments given by year, month, day and time of day, the comparison says that the first is less exactly when it is earlier, and different moments have different time stamps.", "quantifier": "all pairs of valid dates and times, all years", "why_tests_cant": "a date that is sorted wrongly shows only for certain pairs near the end of a month, year or range, and the pairs are too many to try", "anchors": ["xo/time/deprecated/date_time.cpp: date_time::timestamp", "xo/time/deprecated/date_time.h: operator<"]}
{"id": "C154", "title": "Values between samples keep close to the straight lines", "statement": "Asking a series of samples for the value at an index that is not whole gives, in the floating-point type used, a value within a few roundings of the straight line between the two neighbouring samples, at a whole index exactly the sample, and outside of the series the first or last sample. A function stored as samples on a regular grid gives at every argument on the grid a value within a few roundings of the polygon through its samples, and the samples are taken at points within a few roundings of evenly spread ones. Every index or argument of the type gives a defined result.", "quantifier": "all floats and doubles, all numbers of samples, all indices and arguments", "why_tests_cant": "the wrong neighbour is taken, or an error grows, only for particular combinations of spacing and argument, and a float has four thousand million values", "anchors": ["xo/numerical/interpolation.h: lerp_span, lerp_vec", "xo/numerical/regular_piecewise_linear_function.h: regular_piecewise_linear_function"]}
{"id": "C155", "title": "Logging never blocks for good", "statement": "Any number of threads can log messages, flush, create and remove sinks and change their levels at the same time, and the handlers of sinks can use the log themselves. However the threads take turns, every call returns after a bounded number of steps, no sink is added or removed while a message is on its way through the list of sinks, and each message is written once to every sink that was registered when its delivery began and wants it, in their order, and to no other.", "quantifier": "all numbers of threads, all lists of calls, all sinks and all schedules", "why_tests_cant": "a deadlock needs a particular order of steps of several threads, which tests meet only by chance", "anchors": ["xo/system/log.cpp: log_string, log_vstring, flush, add_sink, remove_sink, test_log_level", "xo/system/log_sink.cpp: sink::set_log_level, console_sink::hande_log_message"]}
{"id": "C156", "title": "A softly clamped number stays in the range", "statement": "In the floating-point type used, softly clamping a number to a range with borders of a given share leaves numbers between the borders as they are and brings every other number into the range, to within a few roundings of the exact curve.", "quantifier": "all floats and doubles: numbers, ranges and shares of the borders", "why_tests_cant": "the result leaves the range only for particular combinations of four numbers, far too many to try", "anchors": ["xo/numerical/math.h: soft_clamp, soft_clamped, limit_transform"]}
{"id": "C157", "title": "Curves with rounding", "statement": "For every argument from 0 to 1 of the type `float` or `double`, the minimum-jerk curve returns a finite number near the exact value, 0 at 0, 1 at 1, never below 0 or above 1, and never falls; for every argument from -1 to 1 the fast arc cosine returns an angle from 0 to pi that is less than one degree from the arc cosine, and a larger cosine never has a larger angle.", "quantifier": "all floating-point arguments in the ranges", "why_tests_cant": "The difference to the exact functions is largest next to 1, where large terms cancel; which arguments leave the range or break the order cannot be found by trying some.", "anchors": ["xo/numerical/functions.h: minimum_jerk, fast_acos", "xo/numerical/constants.h: constants::half_pi"]}
{"id": "C158", "title": "Quaternions of matrices with rounding", "statement": "For every matrix of floats or doubles whose numbers are at most a thousandth from those of a rotation matrix, the quaternion made from it has finite numbers, each of them within four times that distance and a fixed number of roundings of one of the two quaternions of the rotation, the same one for all four; its length is one but for the same error. The axes of a quaternion whose numbers are near those of a rotation are near the axes of the rotation, and the quaternion made from the matrix of these axes is again near the first one or its opposite.", "quantifier": "all rotations, all matrices and quaternions of floating-point numbers near them, both types", "why_tests_cant": "Four different formulas are used, chosen by comparisons of rounded numbers; near the borders between them rounding chooses the formula, and each formula divides by a root that is small for other rotations.", "anchors": ["xo/geometry/mat33.h: quat_from_mat33, mat33_from_axes", "xo/geometry/quat.h: local_x_axis, local_y_axis, local_z_axis"]}
{"id": "C159", "title": "Powers and midpoints with rounding", "statement": "For floats and doubles, the midpoint of two finite numbers lies between them, and within a few roundings of the number halfway; a power with a non-negative whole exponent is within one rounding for each multiplication of the exact power, as long as that is well within the range of the type; a power with a negative exponent that is within the range is within a few roundings for each multiplication of the exact one.", "quantifier": "all finite numbers of both types, all exponents", "why_tests_cant": "The formula of the midpoint rounds three times, and between neighbouring numbers each rounding could leave the interval; the errors of powers grow with the exponent, and no finite set of bases and exponents shows that they grow only linearly.", "anchors": ["xo/numerical/math.h: power, midpoint"]}
{"id": "C160", "title": "Smooth clamp with rounding", "statement": "For floats and doubles and every hyperbolic tangent that is zero at zero, never falls and stays between -1 and 1, smooth_clamped leaves numbers between lb and ub as they are, always gives a finite number, never falls as its argument grows, also across the borders, and keeps its results between min and max.", "quantifier": "all finite arguments of both types with min < lb <= ub < max below a sixteenth of the range, all such tangents", "why_tests_cant": "Every operation rounds and the quotient given to the tangent can overflow; that the order is kept across the borders must hold for all pairs of numbers, and the range for all widths.", "anchors": ["xo/numerical/math.h: smooth_clamped"]}
{"id": "C161", "title": "Angles of quaternions with rounding", "statement": "For floats and doubles and every arc cosine that gives an angle for the numbers from -1 to 1 and NaN for all others, the angle of a quaternion around its local x, y or z axis is a finite number with the sign of the component of the axis, because rounding never moves the cosine beyond -1 or 1; and the rotation vector of a quaternion whose length is one but for a few roundings has finite components.", "quantifier": "all finite numbers of both types whose squares are within the range, all such arc cosines", "why_tests_cant": "The cosine is a quotient of rounded numbers that is exactly 1 in the limit; a single number for which the root of the rounded sum of squares comes out too small makes the angle NaN, and tests cannot try all pairs of numbers.", "anchors": ["xo/geometry/quat.h: rotation_around_x, rotation_around_y, rotation_around_z, rotation_vector_from_quat"]}
{"id": "C162", "title": "Waves and positive remainders, with rounding", "statement": "The square wave is 1 from every even number to the next odd one and 0 elsewhere. The triangle wave is the distance to the nearest even number but for rounding, and stays from 0 to 1; between two limits it stays between them. The positive remainder lies in the half-open range from 0 to the divisor and differs from the number by a multiple of the divisor.", "quantifier": "all finite numbers, limits and divisors of float and double", "why_tests_cant": "The waves leave their range only where sums are rounded to a neighbouring integer, for numbers beyond the precision or next to zero.", "anchors": ["xo/numerical/math.h: square_wave, triangle_wave, pos_mod"]}
