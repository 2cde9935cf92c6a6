# Formal model of xo: design

The project under study is the C++ library `tgeijten/xo` in `/repo`, read as text.
This directory holds a Lean 4 model of it and theorems about that model.

## Layout

| Where | What |
| --- | --- |
| `properties.jsonl` | the properties in English, one per line |
| `lean/Verif/Model/*.lean` | the model; every definition cites the file and lines it models |
| `lean/Verif/Spec/*.lean` | small independent specifications, no reference to model helpers |
| `lean/Verif/Lemmas/*.lean` | helper lemmas |
| `lean/Verif/Props/*.lean` | the property theorems, named `Cnn_...`, each with a non-vacuity `example` |
| `MANIFEST.json` | property → theorems, status, notes |
| `seeded/LOG.jsonl` | log of deliberate model bugs and which theorems caught them |

## Conventions of the model

* A C++ function that mutates an object becomes a function returning the new object.
* `Res α` (`Model/Basic.lean`) has three outcomes: `ok a`, `err` (a C++ exception: `xo_error`,
  `xo_assert`, `std::out_of_range`) and `ub` (undefined behaviour: out-of-range access, iterator past
  the end, `% 0`, missing return). Undefined behaviour is never silently totalised away.
  `xo_assert` is modelled as active, which is the default build (`XO_ASSERT_ENABLED 1`, `xo_config.h:17`).
* `std::vector` is `List`; `std::lower_bound`/`upper_bound` are modelled as the halving loop of the
  standard library, not as a specification.
* Integers are `Nat`/`Int` unless the property is about wrap-around; then `BitVec`.
* Characters are `UInt8`-sized values where the sign of `char` matters (Linux x86: `char` is signed).
* Floating point is modelled in two ways. Most models of formulas use exact arithmetic in an arbitrary (linearly ordered)
  field or the real numbers; their theorems say what the formulas compute, not how much rounding changes them.
  Models with `Fl` values (`Model/Ieee.lean` and the modules that import it: C120 to C124, C129, C131, C136 to C138, C141, C144, C145,
  C147, C149 to C151) have IEEE 754 binary numbers with rounding to nearest even after each operation, subnormal numbers,
  both infinities, NaN and signed zero. They assume that the compiler does not contract products and sums.
* Threads are modelled as interleavings of atomic steps, where a step is the code between lock operations.
* A property that the code violates keeps its full statement in `properties.jsonl`. Here we prove the negation
  with a concrete witness (`Cnn_..._violated`) and the strongest true restriction (`..._partial`).

## Trusted base

* Lean 4.33.0's kernel.
* Axioms: at most `propext`, `Classical.choice`, `Quot.sound` (checked with `#print axioms`). No axioms of
  our own, no `sorry`, no `native_decide`, no `bv_decide`.
* The reading of the C++ sources: the citations in the model are the only tie between model and code.
* The C++ standard library is modelled by its documented behaviour (vector, string, map, find, sort, mutexes).

## Plan per property

| Id | What is modelled | How it is proved |
| --- | --- | --- |
| C01 | sorted list of pairs with halving `lower_bound` | refinement to `K → Option V` by induction over operation lists |
| C02 | the same for keys | refinement to `K → Bool` |
| C03 | sort without removal of duplicates | negation witness; partial: lists with distinct keys |
| C04 | sorted list, insert at `upper_bound`, range erase | invariant + multiset count, induction over histories |
| C05 | list of pairs, first-match lookup | refinement to map + order of first insertion |
| C06 | value list + index map, push before range check | bijection invariant; witness for the failing call |
| C07 | label list + index map, constructor leaves the map empty | negation witnesses; partial for histories of `add` |
| C08 | flat row-major vector with channel count | refinement to `frame → channel → value` |
| C09 | `lower_bound` + neighbour choice | witness at the first pair; partial elsewhere |
| C10 | flat row-major vector, in-place backward move | refinement to a matrix |
| C11 | buffer, front, size with modular indexing | refinement to `List`; UB witness for growing a wrapped buffer |
| C12 | data, in/out offsets modulo size | invariant over histories against the list of all frames written |
| C13 | `BitVec 64` | bit lemmas, for all flags below 64 |
| C14 | element list, handle = index or invalid | refinement; induction over histories |
| C15–C19 | inductive tree with ordered children | structural induction, list lemmas |
| C20–C22 | tokenizer, parser and printer over characters | token-level then character-level induction on trees; negation witnesses for classes that fail |
| C23 | INI printer and line parser | induction over items; negation witnesses |
| C24 | encoder/decoder over bytes | case analysis per byte plus induction over strings |
| C25–C28, C70 | string functions over `List Char` | induction, comparison with list specifications |
| C29 | decimal printing, `strtol`-like reading with truncation | digit induction; witness for truncation |
| C30 | lexicographic compare with wildcard build number | case analysis; witness against transitivity of `==` |
| C31 | printing and tokenised reading | witness + partial |
| C32 | last-separator and last-dot search | list lemmas; witness for dots in directories |
| C33 | association list of creators | refinement to `name → Option creator` |
| C34, C35 | transition system over threads with shared/exclusive lock | invariant over all interleavings |
| C36 | list of sinks + cached minimum level | invariant over histories |
| C37 | section vector with parent ids and a current pointer | invariant over nested histories |
| C38 | schema tree + data tree | invariant over histories of `set` |
| C39 | heap of stop states | invariant over histories |
| C40–C43 | integer clock arithmetic | induction over histories, `BitVec` for the unsigned division |
| C44, C45 | string suffix logic; identifier list scanning | list lemmas |
| C46 | sentinel optional; `!=` that calls itself | case analysis; divergence shown by absence of a result at every fuel |
| C47 | `BitVec 64` folds | induction over strings |
| C48 | Euclid loop, bit trick, digit loop | strong induction |
| C49–C53, C57, C58, C62 | formulas over an ordered field | algebra, induction over lists |
| C54–C56, C63 | component formulas over a commutative ring / ordered field | `ring`, `nlinarith` |
| C59 | ring buffer of past values | induction over inputs |
| C60 | iterator loops | induction on the length of the range |
| C61 | counters | induction over histories |
| C64, C65 | shape variants, colour components | case analysis, algebra |
| C66 | fuel-indexed include resolution with the depth guard | the guard bounds the recursion |
| C67 | counter search over a set of names | least number argument |
| C68 | list functions | induction |
| C69 | glob matcher | induction against a relational definition |
| C71 | periodic wave formulas over the reals | `Int.fract` algebra |
| C72 | decimal printing and `from_chars`-like reading of binary floating-point numbers (`Num.Fl`, exact rounding) | rounding-interval argument |
| C73 | Euler angles to quaternions over ℝ with Mathlib's `sin`/`cos` | trigonometric identities |
| C74, C75 | distance, volume and inertia formulas over ℝ | algebra, integrals where the definition needs them |
| C76 | printing and reading of times | digit lemmas |
| C77, C78 | typed and geometric values as text in tree nodes | round trips on top of C29, C72 |
| C79 | prefixes, suffixes, case, extensions, text stacks and dictionaries | list lemmas, refinement |
| C80 | the whole ZML reader with macros, scopes, inline macros, references and includes | simulation of an independent evaluator of documents (`Spec/ZmlDoc.lean`, `Spec/ZmlRef.lean`) by induction over documents |
| C81 | depth-first search for a node, parents, queries | induction over trees, positions as lists of indices |
| C82 | counting of dashes, options and plain arguments | induction over argument lists |
| C83 | indented listings of trees and reports of unread nodes | mutual induction over trees against an outline |
| C84 | the one-line text of a node | the text is lexed as a document of `Spec/ZmlDoc.lean`; then C80 |
| C85 | running average, change tracker, IIR filter, first-order filter | induction over the inputs; the difference equation against the plain past of the inputs; `Real.exp` for the first-order filter |
| C86 | comparison with tolerance, path length, point insertion | ordered field / real normed space; induction along the path against an independent `Inserted` relation |
| C87 | 3×3 matrices and quaternions | algebra over ℝ with square roots; the four branches of the conversion |
| C88 | results, error messages, error codes and cached variables | induction over histories of assignments and calls; spec = last assignment, kept value |
| C89 | dynamic arrays, vectors and matrices | refinement of histories on several arrays to lists; algebra over a field and over ℝ |
| C90 | `Model/Recorder.lean`: `write_debug`, frames, vectors and quaternions in frames, means and covariances | invariant on labels and frames by induction over histories; refinement to an abstract list of labelled frames; the covariance against the sum definition, positivity through a sum of squares |
| C91 | `Model/StorageText.lean`: `operator<<` and `operator>>` of `storage` over a model of `char_stream` | induction over cells and lines; the number format is a parameter, instantiated with the modelled `strtod` and stream output |
| C92 | `Model/TypedIndex.lean`: index arithmetic of narrow and wide types, spans, collections as a family of vectors | a client that notes every index it gets; invariant that its notes are the numbered elements, by induction over histories |
| C93 | `Model/Date.lean`: `%04d-%02d-%02d`, splitting, `strtol` | digits of padded numbers; uniqueness of splitting (C25); lexicographic order of digit texts of equal length |
| C94 | `Model/Views.lean`: zip, view_if, iterator streams with positions and undefined access beyond the end | induction over the sequences; streams by reduction to single numbers |
| C95 | `Model/DataFile.lean`: `operator>>` and `read_data` over streams with eof and fail bits | induction over a grammar of files; extraction is a parameter with instances |
| C96 | `fast_acos`, `minimum_jerk`, `evaluate_function`, the angle types with their decimal factors | The error of `fast_acos` is monotone on five pieces of [0,1]: the sign of its derivative is that of a polynomial of degree eight, written with products of the distances to both ends of a piece; the values at the ends follow from bounds for the sine. Minimum jerk: the coefficients follow from the six end conditions |
| C97 | `prop_node_serializer_xml` together with the parts of rapidxml it uses: the in-place parser with its default flags, entity expansion, and the printer | The reader is a family of mutually recursive functions over a fuel that is shown to be enough for any text. A grammar of documents with a meaning, given separately, is shown to be read correctly by induction over documents; the writer's output is shown to be such a document. For cut-off texts, every parser is shown to give the same result when text is appended, unless it failed |
| C98 | `load_file`, `save_file`, `make_serializer` over a map of files and a disk that may refuse to create files or lose text | A format is a writer and a reader; what it keeps is one definition, met by the three formats through the round trips of C20, C23 and C97. The history theorem is an induction over the calls with the last saved text of a file as invariant. Interrupted saves leave a prefix of the text |
| C99 | the linear congruential engines, real and whole numbers and vectors drawn from them, seeding, histories of calls | the modulus is prime and the multipliers have full order (Lucas test, evaluated by the kernel); counting; the loop that rejects values ends because 1 occurs in the period |
| C100 | the whole of console_plot: range of the values, rows of the marks, axes and frame, messages | folds over functions and columns that only write inside the picture; the last function to write a cell is found by induction |
| C101 | a heap of objects and unique pointers; cloning, casting, moving, assigning and destroying them | invariant over lists of operations: each existing address has exactly one owner |
| C102 | proxies over a shared interning table | refinement to a list of values, by induction over the operations |
| C103 | the buffer of frames with its places, writes, reads, interpolation and resizing | invariant over lists of operations: the place of a recent frame holds what was last written to it |
| C104 | `operator<<`, `read_table`, `load_table` and the label access of table.h over the stream model of C95; `>>` for floating point numbers as a split into sign, digits, point and exponent followed by `strtod` (C72) | reading by induction over rows, each row by induction over its cells against the table refinement of C10; writing by C10; then composition |
| C105 | `find_file`, both `try_find_file` and both `find_files` over a predicate of existing paths and a tree of directory listings; the recursion of `try_find_file` with a step bound | induction over the candidates against "first that exists"; induction over the tree against "has an entry at these names"; injectivity of the path text for the "once" part; for the endless recursion, that `filename` is idempotent |
| C106 | `try_find_child_recursively`, `has_any_key`, `get_any_child`; the vector of children with its memory (size, capacity, number of reallocations), and the functions that add children, with the references they return | mutual induction against the preorder list and an inductive relation "is below"; induction over sequences of additions, for every growth policy |
| C107 | `load_string`, `save_string`, `append_string`, `copy_file`, `remove` on the file system of C67 with the texts of files added; refused calls and a full disk as parameters | refinement to a map from places to texts, by induction over the calls; induction over the length of paths for the directories that are made |
| C108 | `report`, `report_section`, `get_children`, `total_overhead` over the sections of C37; the order of `std::sort` and the text of the figures are parameters | induction over the levels of the tree against an inductive relation "is shown"; sums over permutations |
| C109 | What console, stream and file sinks write; the console mutex with any number of threads; unlocked streams; the life of a sink during construction and destruction | Invariant over all schedules: text = whole messages + beginning of the current one; refinement of line splitting to C25; negations for cut formats, races, lost messages and half-made sinks |
| C110 | `char_stream`: integers of six types, optional numbers, single characters, lines, line numbers, `try_get`, `seek`, `seek_past` | Invariant over all histories (position in the text, monotone); round trip of laid-out numbers; refinement to `LeadingNumber` of C29 and `OccursAt` of C27; negations for range, zeros, sticky failure and loops |
| C111 | Twist of a quaternion around an axis in all variants, rotation vector with angle, pitch, yaw, roll, over ℝ | Swing-twist decomposition by algebra with half angles; `atan2` as `Complex.arg`; negations for sign, singular cases, length and rebuilding |
| C112 | settings on disk | object and disk as a state machine; invariant on the stored tree over all histories; entries of a file are calls of `set`; round trip |
| C113 | test cases in parallel | one state machine per test case and a mutex; what a thread wrote plus what is to come is invariant; weight for termination; owner of the mutex for exclusion and absence of deadlock |
| C114 | clocks that count ticks | 64-bit conversions with overflow as undefined outcome; bounds of the quotient by nonlinear arithmetic |
| C115 | tokens of a stream, any settings | the token loop over the rest of the text; sorted operators give the longest match; induction over items for the round trip |
| C116 | The remaining functions of `math.h` over an ordered field, over integers with a width (overflow is undefined, unsigned numbers wrap) and over the reals (`Model/NumFns.lean`). | Compared with Mathlib's powers, signs, parity, absolute value; bits of bytes by `testBit`; the midpoint fails for unsigned numbers in falling order and for signed numbers far apart. |
| C117 | `smooth_clamped` over the reals (`Model/NumFns.lean`). | Functions glued at a point with equal value and slope have a derivative; twice. `tanh` by its derivative. With `lb = min` there is a kink. |
| C118 | `operator()` with labels, both evaluation orders, const access by label, `back_row`, `label_vector<void>` (`Model/LabelTable.lean`). | Invariant between table and map, over all histories, on top of the refinement of C10. |
| C119 | `get_interpolated_value` over an ordered field with floor (`Model/LabelTable.lean`). | The matrix of C08 gives the cells; the border cases are computed. |
| C120 | IEEE values with NaN, infinities and signed zeros (`Model/Ieee.lean`); `Spec/Ieee.lean` places numbers in the rationals with two infinities. | Comparison of values is the order of the rationals; induction over the sequence for running minimum and intervals. |
| C121 | The same operations with rounding to nearest, ties to even, for any precision from 24 bits on. | Rounding is monotone and keeps numbers of the type; half a rounded difference is not above the difference. |
| C122 | `wrap`, `pos_mod` and an exact `fmod` on the same values. | The remainder is a number of the type; a number below the rounded length is not above the exact length. |
| C123 | `accumulate` and `average` with rounding after every addition (`Model/Ieee.lean`). | Induction over the container: monotone rounding keeps the order; sums that are numbers of the type are exact. |
| C124 | Colour numbers and bytes with the rounding of `float` (`Model/IeeeColor.lean`). | All 256 bytes are evaluated by the kernel, colour numbers follow by their bytes; order by monotone rounding; the distance from the error of one rounding. |
| C125 | Texts of vectors and sets, stream operators of `dynvec<int>` with the flags of a stream (`Model/ContText.lean`). | Induction over both lists: an element ends at its blank, nested ones at the matching bracket; induction over the vector for the stream. |
| C126 | `tidy_type_name` behind the demangler, which is a parameter (`Model/TypeName.lean`). | The last separator before the first angle bracket is found by splitting the text of a structured name. |
| C127 | The table of letters and one `replace_str` after the other; `stringf` with its buffer (`Model/SpecialChars.lean`). | One replacement is a pass over the characters (C27); passes are merged because no replacement holds a character of the table. |
| C128 | The functions around `getenv`, `readlink`, `getcwd` and `gethostname` with the answers of the system as parameters (`Model/SystemDirs.lean`). | Case analysis and the last separator of a path; undefined behaviour is an outcome. |
| C129 | `ColNode.fromNode` in `Model/ColorNode.lean`, with `stof`, `stoul` to base 16 and rounded arithmetic | Induction over the digits, splitting at separators by C25, bytes by C124; children by cases; violations by witness |
| C130 | All operations of `circular_buffer` (`Model/Circular.lean`, `Model/FrameRing.lean`) | Refinement to a list of frames by induction over the history; the rotation is part of the invariant. Fewer channels and unknown channels: violated by witness |
| C131 | Points, `linear` and `lerpMap` over rounded numbers (`Model/IeeeInterp.lean`) | Induction over the inserted points; segments by splitting the sorted list; order by monotone rounding; violations evaluated by the kernel |
| C132 | Vectors of four numbers and their assignments (`Model/Vec4.lean`) | Induction over the sequence of assignments, number by number; violation for all vectors with a last number other than zero |
| C133 | Scales, element by element operations and mirroring wrappers (`Model/Scale3.lean`) | Induction over the sequence of scalings; permutation invariance of its factor; algebra in an ordered field |
| C134 | The bounded value, with the missing `return` as undefined behaviour (`Model/Bounded.lean`) | Case split for one use; induction over a sequence of uses |
| C135 | Sums in types with a number of bits (`Model/IntAverage.lean`) | Induction over the list with exact prefix sums; division with remainder; violation by evaluation |
| C136 | `update_fast` and `update_accurate` with rounding after every operation (`Model/IeeeFilter.lean`); the exponential is a parameter | Less than the whole of a rounded difference is never above the difference (`Lemmas/IeeeLerp.lean`); induction over the history; violations by evaluation |
| C137 | `mean_var` and `average_` with rounding (`Model/IeeeStats.lean`) | Signs of rounded squares and sums, relation between runs on opposite values, exactness of whole numbers; violations by evaluation |
| C138 | `generate_canonical` and `uniform_real_distribution` of libstdc++ with rounding, for any engine (`Model/IeeeRandom.lean`) | The canonical number is below one by a unit, then the lemma of C136; violation by evaluation for a seed |
| C139 | `write_function` with rounding and with `int` (`Model/WriteFunction.lean`); whether the file can be created and the function are parameters | Induction over the rounds; each rounded step reaches the next cell of a grid, so that the rounds are bounded; exact arithmetic on multiples of a unit; violations by an invariant and by evaluation |
| C140 | `std::mt19937` as the C++ standard prescribes it: seeding, the recurrence over 624 words, tempering; whole numbers by the scaling of libstdc++. | Tempering and the matrix are injective bit by bit; the words are determined backwards except the oldest one; counting of the accepted numbers as an interval. |
| C141 | The conversions of `time` to and from floating-point numbers, with the rounding of IEEE 754. | Relative error of one rounding, applied along the chain of roundings; monotonicity of rounding; exactness of quarters. |
| C142 | `select`, `select_pattern` as views over the children (models of C68 and C69). | By the theorems on views and on patterns; induction over the children for changes. |
| C143 | Each log call is a list of steps: a sink puts a text into its buffer or hands its buffer over. A crash keeps what was handed over after any number of steps. | Induction over steps and calls with C36 for who gets a message: what is kept is a beginning of what was sent; all of it after completed calls of streams, and after `error`, `critical` and `flush`. |
| C144 | IEEE operations of Model/Ieee.lean and a square root rounded to nearest; `length`, `normalize`, `is_normalized` of vectors and quaternions. | Error bounds for rounding and roots, combined by inequalities between polynomials in the unit of rounding; overflow and the zero quaternion are shown to break the property. |
| C145 | Quaternion products and rotated vectors on the rounded numbers of C121, every operation rounded on its own; the exact quaternions are Mathlib's `ℍ[ℝ]` | Error bound of a sum of four products by induction over its terms; Cauchy-Schwarz and the multiplicativity of the norm; invariant over the list of factors; a small calculus of errors relative to a common bound for the rotation |
| C146 | Calls of save and append as sequences of steps (open, write a piece of any size at the own position or at the end, close, end by force) of any number of programs on one file; and the calls of C107 cut off at any point | Invariant over all schedules with a log of the pieces (append), and with the position of the call that opened the file last (saving the same text); witnesses for all texts that a crash or two different texts break the claim |
| C147 | The two normalisations without a square root (quat.h:79-95) over floats with rounding, and the loop `q = normalized_fast( q * r )`. | Error of the factor `2 / ( 1 + l² )` from the sum of four products; the exact formula squares the error of the length; an invariant over the list of rotations with a bound that does not depend on its length. The slow branch follows from C144. |
| C148 | Iterators of `circular_deque` as indices into the buffer as it is now (circular_deque.h:49-76), with numbers of 64 bits; loops by the number of steps until the indices are equal. | A loop by the refinement of C11. A kept iterator by an invariant over the history: its index and that of its element are the same modulo the capacity. Violations for all deques whose front passes the end of the buffer. |
| C149 | Transforms on the rounded numbers of C121, every operation rounded on its own (`Model/TransformFl.lean`); the exact movements are those of Mathlib's quaternions. | The bounds of C145 for one rotation; an invariant for the position and the rotation of a product by induction over the list of transforms. |
| C150 | Loops of sums and products on the rounded numbers (`Model/LongSum.lean`), the lists of any length. | A sum of two numbers of the type loses nothing at the lower end; induction over the terms with a relative and an absolute part of the error; roots by the bound of C144. |
| C151 | `iir_filter` on the rounded numbers of C121 (`Model/FilterFl.lean`), next to the exact filter of C85 with the same coefficients. | Error of one call from the bounds of C150; a recurrence with poles of magnitude at most r keeps a bound that does not depend on the number of steps (invariant with complex factors). |
| C152 | `gradient` over stored colours; the stored list is any sorted permutation, as the sort of the library does not fix more (`Model/ColorGradient.lean`) | Each component is `lerp_map` of its points, so C131 applies; the range by rounding monotonically |
| C153 | `timestamp` modulo 2^64 (`Model/DateTime.lean`); the fields are bounded by C134 | Digits with mixed bases; the sum does not wrap for 574 million years |
| C154 | `lerp_span`, the constructor and the call of `regular_piecewise_linear_function` on floating-point numbers of both types (`Model/SampleFl.lean`); conversion to `int` outside its range is undefined | Error bounds of every operation composed; the exact polygon changes no faster than its samples, so that an error in the position is bounded too |
| C155 | Threads as lists of instructions with the shared mutex of the list of sinks and the mutex of the console (`Model/LogLock.lean`); the scheduler is a list of thread numbers; with and without preference for the exclusive lock | The code of each thread has a shape that fits the locks it holds (invariant); the holder of the innermost lock can go on; a bound for the remaining steps falls with every step; what a thread has written and will write before it releases the lock stays the same |
| C156 | `limit_transform` and `soft_clamp` on floating-point numbers of both types (`Model/SoftClamp.lean`) | Error bounds of the ten operations composed; the computed and the exact choice of the branch differ only at the border, since rounding keeps the order |
| C157 | `minimum_jerk` and `fast_acos` on rounded numbers (`Xo.CurveFl`) | error bounds carried through each operation; the quotient of `fast_acos` in ℝ with the exact results of C96; range and order refuted by evaluation next to 1 |
| C158 | `quat_from_mat33` and `local_x_axis`, `local_y_axis`, `local_z_axis` on rounded numbers (`Xo.MatFl`), with the rounded root of `Xo.Norm` | in each of the four branches the component that is divided by is at least nearly a half, also if rounding chose the branch; then error bounds through root, quotient and products |
| C159 | `power` and `midpoint` on rounded numbers (`Xo.PowFl`) | midpoint: half of the rounded difference is between zero and the difference, and rounding is monotone; powers: induction on the exponent with one relative error per multiplication, the powers on the way lie between one and the last |
| C160 | `smooth_clamped` on rounded numbers with the tangent of the library as a parameter (`Xo.SmoothFl`) | each operation keeps the order, with infinities from the quotient; the results next to the borders are compared with the border; the range up to the rounding of the width and of the last sum |
| C161 | the angles around the local axes and the rotation vector on rounded numbers, with the arc cosine of the library as a parameter (`Xo.AngleFl`) | the rounded root of anything that is not below the rounded square of a number is not below the number (by the distance of neighbouring numbers); with monotone rounding the quotient stays within -1 and 1 |
| C162 | the two waves, the triangle wave between limits and `pos_mod` on rounded numbers (`Xo.WaveFl`) | remainders are exact; the rounded floor is the nearest integer or its neighbour, so the wave is off by a few roundings of the argument; monotone rounding gives the ranges; large arguments leave the range |

## Disagreements between code and property

Each is proved as a theorem with the suffix `_violated`; the true restriction has the suffix `_partial`.

| Id | What the code does |
| --- | --- |
| C03 | initializer lists are sorted but repeated keys are kept |
| C06 | `indexed_set` stores the value before it checks the index range, so a rejected call changes the set |
| C07 | the constructors taking labels leave the index empty; relabelling a slot keeps the old label findable |
| C09 | a value between the first two frames and nearer to the first gives the second frame |
| C10 | `table::resize` to more rows writes past the end of its buffer |
| C100 | A picture of functions that all take the same constant value (of at least the smallest positive float) divides by zero and writes outside the picture (`C100_constant_violated`), and so does a picture with one column (`C100_one_column_violated`). An interval far from zero and short overflows the position of the vertical axis (`C100_far_violated`). |
| C101 | Cloning a pointer to a base class copies only the base part of the object (`C101_clone_violated`), and cloning a null pointer is undefined (`C101_clone_null_violated`). The comment on dynamic_unique_cast says the original is deleted when the cast fails; it is kept (`C101_cast_deletes_violated`). |
| C103 | at() throws until the buffer is full (`C103_at_violated`). add_frame returns the number after the new frame, which at() refuses (`C103_add_frame_violated`). After add_channel nothing can be read (`C103_add_channel_violated`). Interpolating past the newest frame mixes in the oldest (`C103_interpolated_violated`). The const operator() returns nothing (`C103_const_violated`). |
| C104 | A value that cannot be read (also infinity and NaN, which are written as `inf` and `nan`) does not raise an error: the rest of its row is zero and all later rows are missing (C104_bad_value_violated, C104_infinity_violated). A column label with a blank comes back as two columns (C104_blank_violated). The const access by labels (table.h:66) has no return statement (C104_const_violated). |
| C105 | `find_file` also looks for an absolute path inside the current folder, unlike `try_find_file` (C105_absolute_violated). `try_find_file` with folders never returns for a missing absolute path whose file name starts with `~` or contains a colon, such as `/src/~x.h` (C105_search_violated). `find_files` also returns directories (C105_directory_violated). |
| C106 | References to children become invalid when a child is added and the memory is full, for example the reference to the first child of an empty node when the second is added; nothing tells so. A node appended to itself, or assigned a copy of a node below it, is undefined behaviour. Theorems `C106_references_violated`, `C106_alias_violated`. |
| C107 | A disk that becomes full while a text is saved is not reported: the file has only the beginning of the text. Loading a directory gives an empty text and no error. With a backslash in the path a directory is made, but the file is put beside it, with the backslash in its name (POSIX). Theorems `C107_full_violated`, `C107_directory_violated`, `C107_backslash_violated`. |
| C108 | `report` before the first `start` takes the front of an empty vector, which is undefined behaviour; the test for a missing root never fails. The count of a section is a `size_t` printed with `%6d`, and is wrong from 2³¹ on. Theorems `C108_empty_violated`, `C108_count_violated`. |
| C109 | log_vstring (log.cpp:27-35) formats into 1024 characters and drops the rest. stream_sink and file_sink write without a lock while log_string holds only a shared lock (log.cpp:22), so messages of two threads race or mix. file_sink tests good() and drops messages silently (log_sink.cpp:145-149). sink registers itself in its base constructor and deregisters in its base destructor (log_sink.cpp:23-35), so a message of another thread in between calls a pure virtual function or uses a destroyed stream. |
| C11 | `push_back` on a full `circular_deque` whose front is not 0 inserts past the end; const `back()` is off by one |
| C110 | operator>> for integers ignores range errors of strtol/strtoul and narrows silently (char_stream.h:35-42): "4294967301" is the int 5 and "-1" the unsigned 4294967295. operator>>( optional ) uses the sticky fail flag (char_stream.h:45). try_get with a zero passes the terminating zero (char_stream.cpp:162-180). getc gives a zero before eof is noticed (char_stream.h:53). get_line leaves the end of line, so a loop of get_line stays there for ever (char_stream.cpp:45-59). seek stops at a zero inside the text (char_stream.cpp:131). |
| C111 | rotation_around_axis returns angles between -360 and 360 degrees, different ones for q and -q (quat.h:197-204). rotation_around_x/y/z and quat_angle_around_axis_fast divide by zero when q.w and the component along the axis are zero (quat.h:178-222). quat_angle_around_axis sets w to 1 without normalising (quat.h:189-191). pitch, yaw and roll (quat.h:319-337, marked todo in the code) of half a turn around x also give half a turn of yaw. |
| C112 | Settings cannot be created without a file name although the constructor has a default for it (`C112_no_name_violated`). Loading into settings in use keeps the old value of every setting that the file does not mention, which are those that had their default when it was saved (`C112_load_keeps_violated`). A load that fails takes over the file name, and the next save overwrites the file that could not be read (`C112_failed_load_violated`). The version is written into the settings: it can then be read as if it were a setting (`C112_version_visible_violated`), and a setting called version is replaced by it and not restored (`C112_version_setting_violated`). A setting with allowed values and a range is lost on reading (`C112_allowed_range_violated`). Entries that are no settings are removed from a file by loading and saving (`C112_unknown_violated`). |
| C113 | The line STARTING is written without the mutex, so that with a sink for level debug two threads write at the same time, and most sinks have no lock of their own (`C113_start_overlap_violated`). A test case that an exception with an empty message leaves is logged as critical but counted as passed, and all is reported clear (`C113_empty_message_violated`). Results of earlier runs are kept: a test case that threw once counts as failed ever after, without any line in the log when it then runs well with at most one check (`C113_silent_violated`). |
| C114 | The product of ticks and the reduced factor overflows long before the time does: for a frequency without factors 2 and 5 after 9223372037 ticks, at 3.579545 MHz in less than four hours (`C114_overflow_violated`, `C114_overflow_soon_violated`; the code has a todo there). The deprecated clock multiplies by 10^9 without reducing: undefined after 9223372037 ticks, fifteen minutes at 10 MHz (`C114_old_violated`). `tick_count` of a paused timer is the sum of its ticks and the counter (`C114_tick_count_violated`). |
| C115 | A word directly before a quotation mark is lost (`C115_word_before_quote_violated`); an empty word in quotation marks directly before an operator is lost (`C115_empty_before_operator_violated`); with an empty operator reading never advances (`C115_empty_operator_violated`). |
| C116 | `midpoint` computes `v2 - v1` first: it overflows for signed integers far apart (`C116_midpoint_signed_violated`) and wraps for unsigned integers in falling order, so that `midpoint( 4u, 2u )` is 2147483651 (`C116_midpoint_unsigned_violated`); `abs` of the smallest integer overflows (`C116_abs_signed_violated`); `same_sign( 0, 1 )` is false although `sign` of both is 1 (`C116_same_sign_violated`). |
| C117 | With `lb = min`, which the description of `smooth_clamped` allows, the clamp has a kink, so it is not C2 (`C117_kink_violated`). |
| C118 | Reading a pair of labels of a table that is not const adds the row and the column (`C118_look_adds_violated`); the const version has no `return` (C104). |
| C119 | The last frame is refused (`C119_last_frame_violated`); a channel behind the last one gives values of other channels without an error (`C119_channel_violated`); a place before the first frame is undefined behaviour (`C119_outside`). |
| C120 | NaN passes `clamp`, makes `min` and `max` depend on the order of their arguments, stays in a running minimum that starts with it, and empties an interval that is extended by it: the next number then becomes its lower end (`C120_clamp_nan_violated`, `C120_min_nan_violated`, `C120_running_nan_violated`, `C120_extend_nan_violated`, `C120_different_violated`). `equal` is false for an infinite value and itself (`C120_equal_violated`). `abs` keeps a negative zero, and signs of NaN are -1 or 0 (`C120_sign_violated`). |
| C121 | `midpoint` of the smallest and the largest number, and mean or centre of the largest number and itself, are infinite (`C121_midpoint_violated`, `C121_middle_violated`). `lerp` with parameter one misses the second value and may exceed it: 4 between -16777216 and 3 with `float` (`C121_lerp_violated`). |
| C122 | A small negative value is wrapped to the upper limit itself (`C122_upper_violated`); a finite value far from the lower limit is wrapped to NaN, and so is every value if the limits are equal (`C122_nan_violated`); the positive remainder for an infinite divisor is NaN (`C122_posmod_inf_violated`). |
| C123 | The average of ten times 0.1 is smaller than 0.1, the average of the largest number and itself is infinite (`C123_range_violated`), and sums depend on the order of the values (`C123_order_violated`). |
| C124 | The byte is not always the nearest, since the number is rounded twice (`C124_nearest_violated`); NaN has undefined behaviour (`C124_nan_violated`). |
| C125 | A vector with the text "a b" has the same text as one with "a" and "b" (`C125_blank_violated`); vectors of vectors of texts collide even without blanks (`C125_bracket_violated`). |
| C126 | A template in no namespace keeps its arguments (`C126_global_violated`); a type inside of a template gets the name of the template (`C126_inside_violated`); `unsigned int` becomes `int` (`C126_blank_violated`); types of different namespaces share a name (`C126_same_violated`); other texts give undefined behaviour (`C126_unknown_violated`). |
| C127 | Several accented letters stay (`C127_missing_violated`); a text in UTF-8 can be damaged (`C127_utf8_violated`); formatted text is cut after 255 characters without a report (`C127_format_violated`). |
| C128 | Without HOME the directories for settings and documents are undefined behaviour (`C128_home_violated`), as is a removed current directory (`C128_current_violated`) and a computer name of 64 characters (`C128_name_violated`); a program in the root directory has no directory (`C128_root_violated`), a long name is cut (`C128_long_violated`), a backslash counts as separator (`C128_backslash_violated`). |
| C129 | The first letter of a text that is not rgb or hsv decides: blue, cyan and -1 are accepted as hexadecimal numbers, while rgba(255, 0, 0, 1) and #ff0000 are refused. rgb(3,3,3) and 030303 give components that differ in the last bit. Components by name need numbers in the first three children also, whatever their names. A list such as [1 x 0] is refused after the red component has been overwritten. |
| C130 | resize to fewer channels keeps the array and changes the stride, so values of channels that are gone appear in the next frame. set does not check the channel: it writes to the next frame, or beyond the array. |
| C131 | With float the function through (0, -16777216), (1, 3), (2, 3) is 4 at 1 and 3 at 3/2. lerp_map through (-16777216, -16777216) and (1, 3) is 4 at 1/2. If the difference of two values overflows, the value at the first of them is not a number. |
| C132 | Subtraction by assignment, negation, multiplication and division leave the fourth number as it was (vec4.h:20-42). Binary subtraction calls a constructor that does not exist (vec4.h:17-18). |
| C133 | equal compares the difference with the tolerance times the first value only, so a and b may agree while b and a do not (compare.h:10-11, vec3.h:99-100). |
| C134 | set and both assignments end without the return their type asks for, so every accepted value is undefined behaviour (bounded.h:12-14). The default value is zero whatever the bounds are, so the day of a date starts at 0 (date_time.h:12). The conversion to a reference lets any value in (bounded.h:17). |
| C135 | Sums are formed in the type of the elements: the average of two copies of 2^31-1 is undefined behaviour, of two 8-bit 127 it is -1, and the order of the elements decides. The variance uses the rounded mean: that of 0, 2, 2 is reported as 1 where 8/9 is exact (container_algorithms.h:13-18, 37-41, 59-67). |
| C136 | A filter at 1 stays there for ever when the input is the next float and the factor is a quarter (`C136_stall_violated`). With the factor one the update passes the input, and `update_accurate` with dt = 0 changes the value 3 to 4 for the input -16777216; a difference too big for the type gives infinity and then NaN (`C136_whole_violated`). |
| C137 | The variance of ten times 0.1 is not zero (`C137_equal_violated`). An `average_` with the single value 0.1 and weight 3 gives a larger number, and weights that cancel are taken for none (`C137_weight_violated`). |
| C138 | `uniform( 16.0f, 17.0f )` of a `random_number_generator_fast` with the seed 247665088 gives 17; bounds whose difference is too big for the type give infinity (`C138_upper_violated`). |
| C139 | `write_function` does not end for an interval of zero, which is the default for `int`, for an interval that is lost in the rounding, and when a sum becomes infinite (`C139_endless_violated`, `C139_int_violated`). With the default interval the numbers of a `float` from 0 to 5 end at 4.99, with the interval 1 they go beyond max from 2^20 on, and lines can show the same number (`C139_last_violated`). |
| C14 | move assignment of handles swaps, so the source stays valid; the last of 2^w elements gets the invalid handle |
| C141 | Every negative time made from its number of seconds is one nanosecond later; odd numbers of nanoseconds from 2^52 on come back one larger; time * 1.0f changes times above 16.8 milliseconds. |
| C143 | `message( level::error, ... )` and `messagef` do not flush, although the comment of `flush` says that this happens for every level from `error` on. A sink with a buffer loses such a message if the program stops (`C143_message_violated`). |
| C144 | Normalising a vector whose squared component overflows gives the zero vector (`C144_long_violated`), one with a length of epsilon or less is left as it is (`C144_short_violated`), and the zero quaternion becomes NaN (`C144_zero_violated`). |
| C146 | Saving empties the file before it writes: a program that ends in between loses the old text and leaves a beginning of the new one (filesystem.cpp:277-284). Two programs that save different texts at the same time can leave a mixture of both, without an error. |
| C148 | A kept iterator stays at its element, but once pop_front has moved the front past the end of the buffer it compares different to begin() + k and a loop from it to end() makes more than 2^63 steps. it++ returns a reference to a local variable. After a push_front that grows the buffer, iterators are at the element before theirs. |
| C150 | With float, a sum of more than 16777216 ones stays at 16777216 however many are added, so the mean of many equal values is wrong (`C150_long_sum_violated`). |
| C151 | A stable filter whose input has ended need not come to rest: its output may stay at a tiny number for ever (`C151_rest_violated`). |
| C152 | Two colours at the same value (a jump) may be stored in either order, since `std::sort` is not stable: at the value either colour may be shown (`C152_jump_violated`). |
| C153 | Every moment before the year zero counts as later than every moment from the year zero on, since the year is converted to an unsigned number (`C153_zero_violated`). With the initial day, which is zero, the time stamp wraps to the far future (`C153_default_violated`). |
| C154 | An index that is infinite, not a number or not below 2147483647 is converted to `int`, which is undefined, instead of giving the last sample (`C154_index_violated`); the same holds for arguments far outside of a regular grid (`C154_regular_violated`). If the difference of two neighbouring samples is too big for the type, the result at the index of the first of them is not a number (`C154_far_apart_violated`). |
| C155 | The lock of the list of sinks is held while the handlers run. A handler that changes the level of its own sink waits for itself (`C155_change_violated`); a handler that logs waits for good with a thread that is about to remove a sink (`C155_log_violated`). |
| C156 | The result can be above the upper end by one rounding: a million clamped to [-1, -1/2] with borders of a twentieth (`C156_range_violated`). For ranges whose border has a square that is too big for the type the result is minus infinity, also for numbers in the range (`C156_wide_violated`). |
| C157 | Next to 1, `minimum_jerk<float>` returns more than 1 and then falls, and `fast_acos<float>` returns a negative angle that is smaller than the one of 1 (C157_jerk_violated, C157_acos_violated); large terms cancel there. | Proved: the error bounds, the exact ends, and that the fast arc cosine stays within one degree. |
| C159 | midpoint( -max, max ) is infinite instead of 0, because the difference overflows; power< -5 >( 2^26 ) of floats is 0 although 2^-130 is a float, because the positive power overflows first (`C159_midpoint_violated`, `C159_negative_violated`) |
| C16 | `erase_query` splits the leading keys at `.` whatever delimiter it is given, and does not erase by `#index` |
| C160 | smooth_clamped< float > gives numbers below `min` if the width `lb - min` is rounded up, for example with min = -3/2^25 and lb = 1 (`C160_range_violated`) |
| C161 | The angle around a local axis is NaN if the real part and the component of the axis are zero or their squares vanish (`C161_angle_violated`); rotation_vector_from_quat guards a real part above 1 but not one below -1, where the components are NaN (`C161_vector_violated`) |
| C162 | `square_wave` is 1 for all negative numbers (`C162_square_violated`); `triangle_wave( 16777218.0f )` is 2, twice the documented maximum (`C162_triangle_violated`); between limits the wave can be above the upper limit at the upper limit (`C162_triangle_in_violated`); `pos_mod` of a negative multiple of the divisor, or of a small negative number, is the divisor (`C162_pos_mod_violated`) |
| C17 | `merge` collapses children with the same key, so arrays lose elements |
| C20 | Not written: any root with a value, array elements in a group. Lost or changed: values with `=` or `'` but no quoted character, values that end with a colon in one-line groups, values beginning with `@` or `$`, `${`, values or keys equal to operators or comment marks, empty array elements, array elements with value and children, root arrays, codes 0 and above 127; concise: `""` at the end of a group, the empty tree. |
| C21 | A text that ends with a backslash inside a quotation (`"abc\\`) is never finished: `decode_char` reports length 0 for the last character, so the position does not advance. A macro defined inside the body of a macro may leave a dangling reference (taken as undefined behaviour). |
| C22 | A space behind a token that ends with a colon changes the tokens (`a:b` / `a: b`). A comment directly behind `""` or behind a token that ends with `/` is not recognised. |
| C23 | Items behind a group are read into the group. Not written: empty values at the top, values of groups, the root value, deeper levels. Changed: repeated keys, blanks at the ends, `=` in keys, `;` at the start, brackets around a line, line ends, empty group names; lines above 1023 characters are errors. |
| C24 | NUL and characters from code 128 are not restored by unquoting; unquoting a lone `"` reads past the end |
| C28 | an occurrence at position 0 is found again and again, so the result is 0 for every `n` |
| C29 | a number outside the range of the type gives another number, and success |
| C30 | a version without build equals every build of it, so `==` and `<=` are not transitive |
| C31 | the postfix is written without the blank that reading needs, so it is never restored; an absent build keeps the target's |
| C32 | `extension`, `stem` and `replace_extension` look for the last dot of the whole path, also in directory names; `/` drops a root slash and changes backslashes |
| C34 | `file_time_` is stored before the resource is created: after a failed reload the old data is served as if fresh, and the failure is not reported again, until the next write |
| C35 | a throwing call is not remembered, so it is made again each time; a NaN argument is equivalent to any argument and gets its result; the thread-safe version deadlocks on recursion |
| C36 | `sink::set_log_level` removes and re-adds the sink, so a message logged by another thread in between does not reach it. |
| C37 | `find_section` compares `const char*` addresses: equal names at different addresses under one parent give two sections. |
| C38 | Ids like `#1` are resolved separately in schema and data, so `set` can change another setting; after setting `a.b`, `get("a")` reads an empty node instead of the default of `a`; a ranged setting without a type accepts non-numeric text (stored as 0, clamped) and NaN. |
| C40 | `restart` while paused returns the clock reading plus the time shown; `set` to a time not below the clock reading stops a running timer; `set` to a negative time starts a paused one; `pause` twice or `resume` twice show garbage |
| C42 | dividing a negative time by a `size_t` converts it to unsigned: the result is a huge positive time; `time_from_nanoseconds` and the like round negative whole counts up by one nanosecond |
| C44 | setting no side on `a_l_r` leaves `a_l`, which still reads left; `append_before_side` can change the side |
| C46 | the sentinel (lowest signed, highest unsigned value) and NaN are no values; `!=` between two optionals calls itself without end |
| C47 | `char` is sign extended: bytes from 128 on do not give FNV-1a; a `std::string` is hashed up to its first NUL |
| C48 | `count_digits( n, base )` divides by 10 whatever the base is, so it is wrong for every base other than 10 (`C48_digits_violated`) and does not end for base 0. `greatest_common_divisor` of signed numbers can be negative (`C48_gcd_signed_violated`). `is_power_of_two` of the smallest signed number overflows (`C48_power_of_two_violated`). |
| C49 | `wrap` maps every value a whole number of periods below the range to its upper end, not to its lower end (`C49_wrap_violated`); `pos_mod` of a negative multiple gives the modulus, not 0 (`C49_pos_mod_violated`). |
| C50 | `lerp_precise` gives the negative of the first value at 0 (`C50_lerp_precise_violated`). `lerp_span` has undefined behaviour for indices from 2147483647 on instead of the last element (`C50_lerp_span_violated`). |
| C51 | `repeated_median_regression` divides 0 by 0 when two points have the same abscissa, so it does not recover the line (`C51_repeated_median_violated`). |
| C53 | For integer elements the mean of the two middle elements is truncated, and their sum may overflow (`C53_int_violated`). |
| C54 | rotating by a product of quaternions that do not have length one is not rotating successively; `inverse` divides by the length instead of its square, so it undoes multiplication only for unit or imaginary quaternions; `quat_from_directions` of opposite directions is always the half turn about x |
| C55 | `transform_srt` composition and inversion forget the scale |
| C56 | asking for the bounding box of a cylinder, capsule, cone or plane throws |
| C57 | the velocity jumps at a joint between time steps of different length; `catmull_rom_segment_alpha` divides by zero for repeated points |
| C59 | Before the delay has passed a delayer with an initial value returns zero, because only the first array element gets it (`C59_initial_violated`, every N and delay). With more than one step per slot a sample between two slots is lost (`C59_lost_sample_violated`). |
| C60 | `frange::size()` is one less than the number of values visited, always; a step that does not divide the distance runs past the end (signed: overflow; unsigned: wraps, for even steps and odd distances for ever); `b > e` is not empty; a one-step `frange` gives NaN; an `frange` with an increment pointing the other way never ends |
| C61 | An exception with an empty `what()` counts as success; results are not reset, so a test case that failed once is counted as failed in every later run. |
| C62 | `top_average( v, k )` averages the k smallest elements, not the largest (`C62_top_average_violated`), and counts zeros when k exceeds the size (`C62_top_average_padding`). |
| C63 | `scaled( vec3 )` returns a reference to a local variable |
| C64 | The moment of inertia of a capsule is not linear in the density; that of a cone throws. The reported dimensions of a capsule leave out its two end caps, although those of the other shapes enclose the solid (`C64_extent_violated`). |
| C65 | The constructor from `double`s sets alpha from blue, so `color( 1., 0., 0. )` and `1.0 * color::red()` are transparent; a negative hue gives black with alpha 0. |
| C66 | ZML `<< file >>` has no guard: files that include each other in a cycle are loaded without end (`load_zml` calls itself until the stack is exhausted). |
| C67 | `find_unique_directory` may return the path of an existing file; `directory_exists` is true for sockets and block devices (mode bit test); `create_directories( "a/" )` makes the directory and returns false, so `create_unique_directory( "a/" )` returns `a/ (1)`. |
| C69 | `[...]` is special too, through `fnmatch` |
| C70 | `right_str` throws when the length exceeds the string |
| C71 | `square_wave` is constantly 1 for every negative argument (`C71_square_violated`), because `fmod` keeps the sign. |
| C72 | to_str writes six significant digits, so most floats and doubles do not survive from_str(to_str(x)); writing, reading and writing again changes the text of exactly one magnitude of double, 202403 * 2^-1074 (1e-318, then 9.99999e-319); set_to_str_precision, documented to set the precision of to_str, has no effect on it. |
| C73 | when the middle angle is a right angle the other two come out as zero, so the rotation is not recovered |
| C74 | perpendicular lines with short direction vectors are taken for parallel and closer points exist; the distance from the centre of a cylinder through its top is wrong; cones throw and planes give zero |
| C75 | the moment of inertia of a capsule across its axis contains the mass of the cylinder twice |
| C76 | from_str(time) reads only the number in front, so every text with a colon that to_str(time) writes (from 10 s on) is read as a wrong, smaller time; negative times come back one nanosecond too large. |
| C77 | A `flat_map` given to `set` or `operator=` is stored as its text (the overload of `to_prop_node` takes a non-constant reference) and is read back as an empty map, without an error (`C77_map_set_violated`). Reading a `std::array` from a node with too few children succeeds and leaves the other elements uninitialised (`C77_array_violated`). |
| C78 | Euler angles are always read in the order xyz: a node with `x`, `y`, `z` and `order` has four children and is refused (`C78_euler_order_violated`). A `scale3` is written as the text of three numbers but read as a single number, so `1 2 3` becomes `1 1 1` without an error (`C78_scale_violated`). In a group with only one of the two ends of an interval named, the other end is taken by position, so a first value named `max` also becomes the lower end (`C78_bounds_violated`). |
| C79 | `str_begins_with( s, "", s.size() )` is false; `get_filename_folder( "c.x" )` is `"c.x"`; `to_lower`, `to_upper` pass negative characters to `std::tolower` (`C79_begins_at_violated`, `C79_folder_violated`, `C79_case_violated`) |
| C80 | In `$m = v { ... }` the children are added to the item before, not to the macro; an empty quoted text in the place of a label ends the document without an error and the rest is ignored; a definition inside the definition of a macro can leave a dangling reference (`C80_macro_children_violated`, `C80_empty_label_violated`, `C80_nested_definition_violated`) |
| C81 | The query to an unnamed child (array element) is that of its parent, repeated names get the same query, and a name that contains the delimiter is taken apart (`C81_array_violated`, `C81_repeated_violated`, `C81_delimiter_violated`) |
| C82 | A value that begins with a dash (a negative number) is not taken as the value of the option; an unreadable number gives 0 rather than the default; `prop_node_from_arg` keeps only the last plain argument (`C82_negative_violated`, `C82_unreadable_violated`, `C82_plain_violated`, `C82_tree_negative_violated`) |
| C83 | `to_str` and `log_prop_node` mark the whole tree as read; a report marks nodes with a value and children as read, so a second report differs (`C83_listing_violated`, `C83_report_violated`) |
| C84 | `make_str_from_prop_node` writes neither quotation marks nor escapes: texts with blanks or special characters and empty values are not read back, and different nodes have the same text (`C84_quotes_violated`, `C84_ambiguous_violated`) |
| C85 | The running average gives 0 for weights with a negative sum and says it is empty if weights cancel (`C85_average_negative_violated`, `C85_average_cancel_violated`); a filter without coefficients writes behind its arrays, and `velocity` of a filter with one coefficient reads behind them (`C85_no_coefficients_violated`, `C85_velocity_violated`); the fast first-order update overshoots for steps longer than the time constant (`C85_fast_violated`) |
| C86 | `equal(a,b)` scales the tolerance with its first argument only, so it is not symmetric for any tolerance (`C86_symmetric_violated`) |
| C87 | `quat_from_mat33` indexes a constant matrix although the index operator is not declared for constant matrices, so it cannot be compiled when used; the model takes the intended access. Matrices that are no rotation are accepted without an error: for a scaled identity, the length of the quaternion is wrong (`C87_scaled_violated`, `C87_only_rotations`) |
| C88 | An error without a text is no error to a result: it keeps showing the value from before (`C88_result_violated`). A cached value that is first asked for at the time the cache was made with gives the initial value, and the function is never called (`C88_cached_violated`) |
| C89 | After a move, the size of the old array is undefined and it says that it is not empty (`C89_moved_violated`); assigning an array to itself is undefined (`C89_self_copy_violated`); `resize` throws all elements away (`C89_resize_violated`). Comparing vectors of different sizes throws (`C89_vec_eq_violated`). The product of a matrix and a vector takes the transposed matrix, and is undefined if the matrix has more columns than rows (`C89_mat_mul_violated`, `C89_mat_mul_wide_violated`); it also uses the undefined macro `flut_assert` |
| C90 | A recorded value that equals the sentinel is replaced by the next value with its label, as if it had not been recorded (C90_sentinel_violated). A vector and a rotation written under one name share three channels, so the second overwrites the first (C90_shared_violated). A const_frame keeps a position in the data, so after a channel is added it shows a value of another frame (C90_stale_violated). compute_covariance has the return type table<T> and returns a table<T,L>, so it compiles only for the default label type; the model covers the values only. |
| C91 | A label that holds a blank is read back as two labels (C91_blank_violated). A storage without channels loses its frames (C91_no_channels_violated). A text with one label twice throws (C91_double_label), so the statement is for storages with distinct labels. |
| C92 | When all valid indices are in use, the next element gets the invalid index, and the one after that the index of the first element (C92_full_violated); an index span over as many elements as the index type has values is empty (C92_span_full_violated). Moving a wide index beyond the largest value gives a valid index again (C92_wide_violated). collection_ic::erase ends without a return statement, so every call is undefined (C92_erase_violated). Moving an index to itself makes it invalid (C92_self_move_violated). |
| C93 | A negative year is read back as positive because the sign is taken for a separator (C93_negative_violated). The text of the year 10000 comes before that of the year 9999 (C93_order_violated). A text with three parts, one of which is no number, is refused but changes the date (C93_garbled_violated). |
| C94 | zip looks at the end of the first sequence only, so a shorter second sequence is read beyond its end (C94_zip_violated). |
| C95 | A value at the very end of the file, with no white space behind it, is lost without an error (C95_last_violated). |
| C96 | fast_acos has a pole near 1.0080: a cosine slightly beyond 1 gives -1.69 (at 1.007) or 92 (at 1.008) (C96_acos_beyond_violated). evaluate_function with a step that points away from the end converts a negative number of steps to an unsigned one, which is undefined (C96_evaluate_reversed_violated). The product of two angles is an angle that depends on the unit (C96_angle_product_violated). |
| C97 | The value of a node that also has children is not written (C97_value_lost_violated), nor that of the root (C97_root_value_violated). Of several children of the root only the first is read back (C97_several_violated). A blank value comes back empty (C97_blank_violated), an empty key comes back as an underscore (C97_empty_key_violated), a key with a space makes the text unreadable (C97_key_space_violated). Character data sections are dropped (C97_cdata_violated), and so is text after a comment (C97_split_text_violated). The name in a closing tag is not checked (C97_closing_name_violated). Decimal references accept letters (C97_decimal_violated), and references to surrogates give bytes that encode no character (C97_surrogate_violated). |
| C98 | An error code that already has an error makes a save that succeeds report failure (C98_stale_violated). A full disk is not noticed (C98_full_violated). A tree that cannot be written destroys the file that was there (C98_failed_save_violated). An interrupted save can leave a file that is loaded without an error as a tree with only the first children, for all ZML and INI trees with several children (C98_interrupted_zml_violated, C98_interrupted_ini_violated); an empty XML file is loaded as an empty tree (C98_interrupted_empty_violated). A directory name with a dot gives a name without extension an unsupported type (C98_directory_violated). |
| C99 | Two seeds can give the same sequence: 0 and 1, and any two that differ by 2^31 - 1 (`C99_seeds_violated`). From an interval with more than 2^31 - 2 whole numbers, such as all of `int`, `uniform_int` never draws more than 2^31 - 2 of them, whatever the seed (`C99_wide_violated`). |

## Modelled files

This table is generated from the citations in `lean/Verif/Model`. A file in it is modelled as far as the citations go; the comments of the definitions give the lines.

| File | Model modules |
| --- | --- |
| `contrib/rapidxml-1.13/rapidxml.hpp` | Xml |
| `contrib/rapidxml-1.13/rapidxml_print.hpp` | Xml |
| `xo/container/circular_buffer.h` | Circular, FrameRing |
| `xo/container/circular_deque.h` | Circular, CircularIter |
| `xo/container/collection.h` | TypedIndex |
| `xo/container/collection_ic.h` | TypedIndex |
| `xo/container/container_algorithms.h` | Ieee, IeeeStats, IntAverage, LongSum, Stats |
| `xo/container/container_tools.h` | ContainerTools |
| `xo/container/deprecated/circular_frame_buffer.h` | FrameBuf |
| `xo/container/dynarray.h` | Dyn |
| `xo/container/flag_set.h` | FlagSet |
| `xo/container/flat_map.h` | Basic, ColorGradient, Factory, FlatMap, IeeeInterp, PnConv |
| `xo/container/flat_set.h` | ContText, FlatMap |
| `xo/container/handle_vector.h` | Handle |
| `xo/container/indexed_map.h` | Indexed |
| `xo/container/indexed_set.h` | Indexed, Proxy |
| `xo/container/label_vector.h` | Indexed, LabelTable |
| `xo/container/prop_node.cpp` | Listing, NodeTools, PnConv, PropMore, PropNode |
| `xo/container/prop_node.h` | Bounds, Listing, PnConv, PropMore, PropNode, Select, Settings, Zml |
| `xo/container/prop_node_tools.cpp` | Args, Listing, NodeTools |
| `xo/container/sorted_vector.h` | FlatMap |
| `xo/container/storage.h` | LabelTable, Recorder, Storage, StorageText |
| `xo/container/storage_tools.h` | Recorder |
| `xo/container/stream_wrapper.h` | Views |
| `xo/container/table.h` | LabelTable, Storage, TableText |
| `xo/container/view_if.h` | ContainerTools, Views |
| `xo/container/zip.h` | Views |
| `xo/filesystem/filesystem.cpp` | FileCache, FileSearch, FileSteps, Include, SystemDirs, TextFiles, UniqueDir |
| `xo/filesystem/path.cpp` | Include, Path |
| `xo/filesystem/path.h` | Path |
| `xo/geometry/angle.h` | Curves, GeomReal |
| `xo/geometry/angle_type.h` | Curves, GeomReal |
| `xo/geometry/catmull_rom.h` | Spline |
| `xo/geometry/dynmat.h` | Dyn |
| `xo/geometry/dynvec.h` | ContText, Dyn, LongSum |
| `xo/geometry/line.h` | Geom |
| `xo/geometry/mat33.h` | Mat33, MatrixFl |
| `xo/geometry/mat33_type.h` | Mat33, MatrixFl |
| `xo/geometry/mirror_tools.h` | Geom, Scale3 |
| `xo/geometry/path_alg.h` | PathAlg |
| `xo/geometry/quat.h` | AnglesFl, Geom, GeomReal, MatrixFl, Norm, PnConv, QuatFast, QuatMul, TransformFl, Twist |
| `xo/geometry/quat_type.h` | Geom, Norm |
| `xo/geometry/scale3.h` | Geom, PnConv, Scale3 |
| `xo/geometry/segment.h` | Geom |
| `xo/geometry/transform.h` | Geom, PnConv, TransformFl |
| `xo/geometry/transform_srt.h` | Geom |
| `xo/geometry/vec3.h` | Geom, GeomReal, Norm, PnConv, QuatMul, Scale3, TransformFl |
| `xo/geometry/vec3_type.h` | Geom, Norm, Scale3 |
| `xo/geometry/vec4.h` | Vec4 |
| `xo/geometry/vec4_type.h` | Vec4 |
| `xo/numerical/average.h` | Filter, IeeeStats, LongSum |
| `xo/numerical/bounded.h` | Bounded |
| `xo/numerical/bounds.h` | Bounds, Ieee, PnConv, Settings |
| `xo/numerical/compare.h` | Ieee, PathAlg, Scale3, WriteFunction |
| `xo/numerical/console_plot.h` | Plot |
| `xo/numerical/constants.h` | CurvesFl, Norm, Optional, WriteFunction |
| `xo/numerical/delayer.h` | Delayer |
| `xo/numerical/delta.h` | Filter |
| `xo/numerical/filter.h` | Filter, FilterFl |
| `xo/numerical/filter_1st_order.h` | Filter, IeeeFilter |
| `xo/numerical/function_tools.h` | Curves |
| `xo/numerical/functions.h` | Curves, CurvesFl |
| `xo/numerical/interpolation.h` | ColorGradient, Ieee, IeeeInterp, Interp, SampleFl |
| `xo/numerical/math.h` | Bounds, Color, Geom, Ieee, IeeeColor, LongSum, Math, Norm, NumFns, PowersFl, Scale3, Settings, Shape, SignedRootFl, SmoothClampFl, SoftClamp, Ticks, Vec4, WavesFl |
| `xo/numerical/piecewise_constant_function.h` | Interp |
| `xo/numerical/piecewise_linear_function.h` | IeeeInterp, Interp |
| `xo/numerical/polynomial.h` | LongSum, NumFns, Regression |
| `xo/numerical/random.h` | IeeeRandom, Mt, Rng |
| `xo/numerical/regression.h` | Regression |
| `xo/numerical/regular_piecewise_linear_function.h` | Interp, SampleFl |
| `xo/serialization/char_stream.cpp` | CharStream, Lexer, Tokens |
| `xo/serialization/char_stream.h` | CharStream, Lexer, StorageText, Tokens |
| `xo/serialization/container_io.h` | DataFile |
| `xo/serialization/prop_node_serializer.cpp` | Files |
| `xo/serialization/prop_node_serializer_ini.cpp` | Ini |
| `xo/serialization/prop_node_serializer_xml.cpp` | Xml |
| `xo/serialization/prop_node_serializer_zml.cpp` | Include, Lexer, Zml |
| `xo/serialization/serialize.cpp` | Files, Include, SettingsFile |
| `xo/shape/aabb.h` | Shape |
| `xo/shape/box.cpp` | Shape |
| `xo/shape/box.h` | Shape |
| `xo/shape/capsule.h` | Shape |
| `xo/shape/cone.h` | Shape |
| `xo/shape/cylinder.h` | Shape |
| `xo/shape/plane.h` | Shape |
| `xo/shape/shape.cpp` | PnConv |
| `xo/shape/shape.h` | PnConv, Shape |
| `xo/shape/shape_tools.h` | Geom, Shape |
| `xo/shape/sphere.h` | Shape |
| `xo/string/dictionary.h` | StrMore |
| `xo/string/pattern_matcher.h` | Glob |
| `xo/string/stack_string.h` | StrMore |
| `xo/string/string_cast.cpp` | Args, Date, Include, NumText, PnConv, Settings, StrNum, TimeText, Version |
| `xo/string/string_cast.h` | Args, ContText, PnConv |
| `xo/string/string_tools.cpp` | Date, Glob, NumText, SpecialChars, StrMore, StrTools |
| `xo/system/assert.h` | Basic |
| `xo/system/debug_storage.cpp` | Recorder |
| `xo/system/debug_storage.h` | WriteFunction |
| `xo/system/error_code.cpp` | Outcome |
| `xo/system/error_code.h` | Outcome |
| `xo/system/log.cpp` | Log, LogFlush, LogLock, LogSinks |
| `xo/system/log.h` | Log, LogFlush, LogSinks |
| `xo/system/log_format.h` | LogSinks |
| `xo/system/log_level.h` | Listing, Log, LogFlush, LogSinks |
| `xo/system/log_sink.cpp` | Log, LogFlush, LogLock, LogSinks |
| `xo/system/log_sink.h` | Log, LogFlush, LogLock |
| `xo/system/profiler.cpp` | ProfReport, Profiler |
| `xo/system/profiler.h` | ProfReport, Profiler |
| `xo/system/settings.cpp` | Settings, SettingsFile |
| `xo/system/settings.h` | Settings, SettingsFile |
| `xo/system/system_tools.cpp` | StrMore, SystemDirs, TypeName |
| `xo/system/system_tools.h` | TypeName |
| `xo/system/test_case.cpp` | TestCase, TestRun |
| `xo/system/test_case.h` | TestCase, TestRun |
| `xo/system/version.h` | SettingsFile, Version |
| `xo/system/xo_config.h` | Basic |
| `xo/thread/stop_token.h` | StopToken |
| `xo/time/date.h` | Date |
| `xo/time/deprecated/date_time.cpp` | DateTime |
| `xo/time/deprecated/date_time.h` | Bounded, DateTime |
| `xo/time/deprecated/timer_v1.cpp` | Ticks |
| `xo/time/deprecated/timer_v1.h` | Ticks |
| `xo/time/interval_checker.h` | Time |
| `xo/time/stopwatch.cpp` | Timer |
| `xo/time/stopwatch.h` | Timer |
| `xo/time/time.h` | Time, TimeReal, TimeText |
| `xo/time/timer.cpp` | Ticks, Timer |
| `xo/time/timer.h` | Timer |
| `xo/utility/arg_parser.h` | Args |
| `xo/utility/arithmetic.h` | Curves |
| `xo/utility/cached_var.h` | Outcome |
| `xo/utility/color.cpp` | Color, ColorNode, IeeeColor |
| `xo/utility/color.h` | Color, ColorGradient, ColorNode, IeeeColor |
| `xo/utility/color_gradient.h` | ColorGradient |
| `xo/utility/data_algorithms.h` | Recorder |
| `xo/utility/factory.h` | Factory |
| `xo/utility/file_resource_cache.h` | FileCache, SharedMutex, StdMap |
| `xo/utility/frange.h` | Range |
| `xo/utility/handle.h` | Handle |
| `xo/utility/hash.h` | Hash |
| `xo/utility/index.h` | TypedIndex |
| `xo/utility/irange.h` | Range |
| `xo/utility/memoize.h` | Memo, SharedMutex, StdMap |
| `xo/utility/memory_tools.h` | Own |
| `xo/utility/optional.h` | Optional |
| `xo/utility/pointer_iterator.h` | Views |
| `xo/utility/pointer_types.h` | Own |
| `xo/utility/proxy.h` | Proxy |
| `xo/utility/result.h` | Outcome |
| `xo/utility/side.h` | Side |
| `xo/utility/smart_enum.h` | PnConv, SmartEnum |
| `xo/xo_types.h` | StorageText, Version |

Files that no definition cites:

| File | Reason |
| --- | --- |
| `contrib/rapidxml-1.13/rapidxml_iterators.hpp` | third-party code, not used for reading or writing property nodes |
| `contrib/rapidxml-1.13/rapidxml_utils.hpp` | third-party code, not used for reading or writing property nodes |
| `xo/container/array.h` | a fixed array without checks |
| `xo/container/deprecated/buffer_access.h` | not used |
| `xo/container/pair_type.h` | an alias of the standard type |
| `xo/container/prop_node_tools.h` | declarations; the functions are cited in prop_node_tools.cpp; the macros call `get` and `try_get` |
| `xo/container/small_vector.h` | does not compile (the member `data_` is not declared) and is not included anywhere |
| `xo/container/vector_type.h` | an alias of the standard type |
| `xo/filesystem/filesystem.h` | declarations; the functions are cited in filesystem.cpp |
| `xo/geometry/vec.h` | a fixed array without checks |
| `xo/serialization/prop_node_serializer.h` | declarations; the functions are cited in the .cpp files |
| `xo/serialization/prop_node_serializer_ini.h` | declarations; the functions are cited in the .cpp files |
| `xo/serialization/prop_node_serializer_xml.h` | declarations; the functions are cited in the .cpp files |
| `xo/serialization/prop_node_serializer_zml.h` | declarations; the functions are cited in the .cpp files |
| `xo/serialization/serialize.h` | declarations; the functions are cited in the .cpp files |
| `xo/string/deprecated/string_cast_enum.h` | not used |
| `xo/string/string_tools.h` | declarations; the functions are cited in string_tools.cpp |
| `xo/string/string_type.h` | an alias of the standard type |
| `xo/system/benchmark_tools.h` | logs the time of a block |
| `xo/system/debug_tools.h` | macros |
| `xo/system/profiler_config.h` | macros |
| `xo/system/test_main.h` | start of a test program |
| `xo/system/type_class.h` | template metaprogramming |
| `xo/thread/interruptible.cpp` | one flag, set and read without synchronisation; not used by other code |
| `xo/thread/interruptible.h` | one flag, set and read without synchronisation; not used by other code |
| `xo/thread/thread_priority.cpp` | Windows only |
| `xo/thread/thread_priority.h` | Windows only |
| `xo/utility/deprecated/interpolation.h` | not used |
| `xo/utility/overload.h` | template metaprogramming |
| `xo/utility/pair_math.h` | sums and differences of pairs, element by element |
| `xo/utility/sfinae_tools.h` | template metaprogramming |
| `xo/utility/type_traits.h` | template metaprogramming |
| `xo/utility/variant_cast.h` | template metaprogramming |
| `xo_lua/lua_register.h` | binding for another language |
| `xo_test/*` | tests of the library |

## What is not modelled

* Floating-point rounding in models over a field or the real numbers (see the conventions); the rounding of library functions other than the square root
  (`sin`, `cos`, `pow`, `exp`, `log`); floating-point flags and other rounding modes.
* The operating system: real files, clocks, threads' memory model below lock granularity.
* Windows-only code paths, `xo_lua`, bundled third-party code other than the parts of rapidxml that C97 covers, template metaprogramming.
* Performance and memory consumption.
