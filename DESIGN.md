# zetscript: formal model in Lean 4 — design

## 1. Trusted base

* Lean 4.33.0's kernel. Every theorem listed in `MANIFEST.json` depends on at most the three standard
  axioms `propext`, `Classical.choice`, `Quot.sound` (checked with `#print axioms`, see §6). No own axioms,
  no `sorry`, no `native_decide`/`bv_decide`.
* The faithfulness of the model: each Lean definition cites the file and lines of `/repo/src` it models.
  It was written by reading; the C++ was neither built nor run.
* C++ undefined behaviour (signed overflow, out-of-bounds access, null dereference) is modelled as a
  distinct outcome (`ub`/`oob`) where the modelled function can reach it, not as an ordinary value.

### Abstractions used everywhere
* **Floats** (`zs_float` = `double` on 64 bit). The VM's and the compiler's float operations are a structure
  parameter `FloatOps`: the positive theorems hold for every choice of them. A concrete IEEE-754 binary64
  instance (`Verif/Vm/Float.lean`, `ieee`) is used for the counterexamples. `Integer::toString`, which
  divides by multiplying with the double `0.1`, is modelled with exact IEEE rounding (`Verif/Base/Integer*`).
  C `sqrt` is taken to be the root rounded to the nearest double, as IEEE 754 requires (`Verif/Module/MathFns.lean`).
* **Integers** `zs_int` (`intptr_t`, 64 bit): value words are `BitVec 64`, signed overflow is the outcome `ub`;
  elsewhere `Int` with explicit range conditions. Truncations to `int`, `short`, `char` are modelled.
* **Memory**: `malloc` is assumed to succeed; pointers are natural-number ids or words; objects live in a
  heap function. Error message texts are not modelled, only that an error is raised.
* Times are UTC (`TZ` and daylight saving are not modelled).

### Not modelled at all
`Console::readChar` and reading of file contents, the seed of the random numbers, the C++ template glue that registers native
functions and types (only its results, the tables, are modelled), error messages and
line information, the debug printer (`-dbg`), multi-threading, `float`/32-bit builds.

## 2. Layout

`lean/Verif/<Area>/X.lean` — the model, function by function (each definition cites its source lines)
`lean/Verif/<Area>/XSpec.lean` (or a section of `XProps.lean`) — small independent specification
`lean/Verif/<Area>/XProps.lean` — property theorems, each with a non-vacuity `example`
Helper lemmas sit in `XLemmas.lean` / `XProof.lean`. Areas: `Base` (src/base), `Vm` (src/vm, src/core),
`Core` (src/core: type registry, scopes), `Compiler` (src/compiler), `Module` (src/module: json; src/zs.cpp). `Verif/Common.lean` has the outcome type `Out` (ok / err / ub).

## 3. Method when code and property disagree

The model keeps the bug. The file contains (a) a theorem `..._violated` giving a concrete counterexample against
the full property, (b) a theorem `..._partial` proving the property on the largest natural
sub-domain where it holds, (c) an entry in §5.

## 4. Plan per property

| id | modelled | proof |
|----|----------|-------|
| C01,C02 | MapString/MapInt: sorted item array, binary search loops, insertion list | invariant (sorted, same keys in both views) by induction over operation lists; refinement to an association list |
| C03 | Vector with explicit capacity and stale slots | refinement to `List`, by induction over histories; violated for capacity-checked get/erase |
| C04 | List.tcc node ring as next/prev maps | ring invariant by induction over histories |
| C05–C10 | String functions on `List Char`-like byte lists with UB outcome | direct induction over strings |
| C11,C12 | Integer::toString/parse/isInteger | digit induction; classification vs grammar; violations |
| C13–C15 | TimeSpan/DateTime field arithmetic | omega/case analysis for all integers |
| C16–C18,C46 | value kinds and every arithmetic/compare/compound macro | case analysis over abstract floats |
| C19 | vm_load_vector_item index path with 32-bit truncation | BitVec/Int arithmetic; violated |
| C20–C23 | ArrayScriptObject / ObjectScriptObject operations on heaps of element lists | list induction |
| C24 | token splitting loop | tree produced is the unique precedence-respecting tree with the given yield |
| C25 | perform_KK_operation vs VM macros | case analysis; violated; partial on the rest |
| C26 | code generator + peephole optimiser + jump linking + VM | simulation, induction on expressions; violated; partial |
| C27–C29 | statement code generation + VM | simulation by induction on big-step derivations |
| C30 | instruction_num_required_stack scan | invariant over executions of generated code |
| C31 | store/multi assignment | list induction |
| C32 | ignore_blanks | induction over the text |
| C33,C34,C50 | share manager + scope pop | state-machine invariant over all histories |
| C35 | store with READ_ONLY flag | invariant over histories |
| C36,C37 | call argument/return shuffling | list induction |
| C38,C58 | frame index and operand-stack indices over histories of calls, returns, errors (`Vm/Depth`) | invariant over all histories |
| C39,C40 | `Vm/Native`: search, remembered last call, castability, conversion | list induction over the registry and over call histories / exhaustive kinds |
| C41,C60,C61 | `Vm/Iter`: the three iterators, the code of `for(.. in ..)`, native return hand-over, `in`; the body is an arbitrary function on an arbitrary state | refinement of an inductive positional / field-order description, both directions; histories of field operations for objects |
| C42,C43,C59 | `Core/Types`: the type table under classes, natives, `extends`, member functions; recursive `extendsFrom` | invariant over all registration histories |
| C44 | `Core/Scope`: scope tree as an arena, `getSymbol` in its three directions, registration checks, flagging of unused blocks | refinement to a stack of open scopes, by induction over all compile histories |
| C45 | `Core/Checkpoint`: saveState/clear on the tables of functions and types with linking of calls; `Core/Globals`: the same for variables | induction over histories |
| C62,C63 | `Core/Globals`: table of locals of the main function, stack position of each, the reordering at the end of a compilation, registered constants, saveState/clear | refinement to a list of values, by induction over histories; negations with witnesses |
| C47–C49,C64,C65 | `Module/Json`: writer, reader with comments and buffers, object graphs; `Module/JsonSpec`: the grammar with the value of each text | mutual induction over values and over grammar derivations; suffix-length measure for the reader; well-foundedness of the reference graph |
| C66,C67 | `Base/FloatText`: `%f` and `strtof` by exact integer arithmetic | rounding lemmas on exactly representable numbers, digit induction |
| C68 | `Compiler/Access`: code of chains of accesses and calls, effect of the call and access instructions on the operand stack, over arbitrary objects and functions | mutual induction over expressions, chains and argument lists |
| C69,C70 | `Vm/Meta`: dispatch of operators on class objects and of property functions over the cells of the operand stack, with arbitrary function bodies; classes as in `Core/Types` | equivalence with the nearest definition for all registration histories; frame conditions on the stack; negations with witnesses |
| C71–C89 | the parts of C06, C09, C12, C13, C16, C17, C19, C32, C38, C39, C41, C44, C51, C52, C55, C56, C64, C66, C67, C69 and C70 that hold for the code as it is, each stated as a property of its own; the models are those of the rows above | the theorems named in MANIFEST.json, without side conditions beyond those in the English statement |
| C90–C92 | the whole recursive descent of `src/compiler` (statements, expressions, tokens, literals, functions, classes, loops, conditions) over the text, position by position, with the error flag, `NULL` results, exceptions and reads outside the text; questions about names, types and emitted code are answered by an arbitrary environment with state | a Hoare logic (`ParseSpec`) over sets of texts closed under the moves of the parser, one lemma per function, induction over a measure of the text; monotonicity in the fuel; violated for C91 and C92 |
| C93 | `new`: the code the compiler emits from the registry as it stands then, field initialisers per class, run base first, `LOAD_CONSTRUCTOR_FUNCT`, `NEW_OBJECT_BY_VALUE`, arguments, defaults and `CONSTRUCTOR_CALL` on the cells of the stack | `Constructs` says it on the text of the program, without a stack; the position kept by the compiler is shown to be that of the function a lookup finds later (`Grown`), heights bound the recursion over the bases; violated |
| C94–C97 | objects in objects: stack elements, container slots and their lists, share counters, the waiting list and the map of cyclic references; assignment through slots (`.` and brackets), literals, `extend`, `+`, `push`, `erase`, the end of variables, the clean-up between statements, `clear` (`Verif/Vm/Slots.lean`) | refinement to a heap without memory management (`SlotsSpec`); one invariant `J` ties counters, slot lists and stack elements together with the work the destructors have left, and a measure shows that they end; an object a variable leads to is never freed; counters are exact, up to a ghost set of objects pushed into themselves, so that what is left after a sweep is led to by a variable or held by a cycle (by going backwards among finitely many objects); the rest violated |
| C98 | the host's view: `vm_execute` for scripts and functions, arguments, `return`, the blocks that are left, script errors, the list of lifetime objects, `delete` (`Verif/Vm/Host.lean`) | refinement to a world of variables and held objects without counters (`HostSpec`); the invariant is that counters are exact and objects without counter are held once and by no variable; the rest violated |
| C99 | `compileFile`, `import`, `compiler_compile_and_link` for the main function, `parsed_files`, directories, refused scripts (`Verif/Core/Import.lean`) | refinement to a relation that expands imports by file, not by name (`ImportSpec`); the relation is deterministic and takes each file once; violated where names and files differ and after refused scripts |
| C100 | as C99 | measure: the imports written anywhere whose names are not parsed yet |
| C101 | `System::eval`: the instructions of the evaluated code and how `eval` changes their end, and the elements of the machine's stack through the ends of `eval`, of a native call and of `vm_call` | running the changed code refines running the statements; pointwise equations of the copies and reversals |
| C102 | `StringScriptObject::format` (`String::format`, `Console::out…`, `System::error`) on character sequences | induction over the pieces of a format text: writing the pieces and formatting gives what the pieces mean |
| C103 | as C102, with the 512 byte buffer of the error message | the text left gets shorter each turn; lengths |
| C104 | `toStackElement` and its users (template, bound arguments, native results), the ways out over `stackElementTo`; the host's memory and the script objects as maps | one invariant (`Held`: the element has the value and can be taken), by cases on the value |
| C105 | as C104; the host's memory replaced by any other | only texts by address read the host's memory |
| C106 | host functions of arrays: `push`, `set`, `get`, sharing of new objects; histories with changes of memory | invariant by induction over the history; spec is a plain list |
| C107 | assignment, sharing (containers, parameters, operators), `+=`, `+` and methods on string objects; literals as objects of their own | relation machine/values with groups of sharing places, induction over the script; spec is an environment of values |
| C108 | as C107 | invariant: no place refers to the object of a literal |
| C109 | as C107, all scripts | expressions only make new objects; invariant: places refer to existing objects |
| C110 | stored methods with their lists of back references, addresses that are used again, destruction in any order | refinement to identities never used again; invariant: attached methods = list of the object (on top of C04's rings) |
| C111 | as C110, with printing and functions bound by the host | as C110; counterexamples |
| C112 | functions, blocks, constructors, callbacks, eval, errors at any place, over histories of runs | induction over what happens in a run; invariant: shares = those of globals, variables of open functions, and what is left over (never negative) |
| C113 | as C112, with exceptions of instructions and of callbacks that are caught | as C112 with nothing left over; counterexamples |
| C114 | dates over their life, `mktime`/`localtime` in UTC as day numbers and cycles of years | refinement to days that follow each other; day numbers are injective; omega |
| C115 | as C114, with `addMonths`, `addYears` and subtraction, which normalises its operands | as C114; counterexamples |
| C116 | `main` of zs.cpp (the console) with `Console::getline`, `fgets` by its C contract, the engine as a parameter | induction over the lines of the input; counterexamples |
| C117 | `main` of zs.cpp (arguments, script), the files and the outcome of compiling and running as parameters | induction over the arguments, options as a set |
| C118 | `DateTime::parse`, `_parseIntValue`, `toString()` over texts, `strtol`/`sprintf` by contract | a format as a row of runs; induction over the runs with the pending pattern as invariant, the last value of each field |
| C119 | `DateTime::toString(format)` | the same runs; each run rendered against the specification |
| C120 | `vm_execute`, `vm_call`, entry and exit of `vm_execute_script_function`: one stack, a pointer, frames | refinement to environments; induction on fuel with "this part of the stack is the frame and what is below stays" as invariant |
| C121 | the same, with calls by the host and by native functions | the same induction; counterexample with a missing argument |
| C122 | registration, emptying, compiling, linking and calling of functions over sequences of scripts; memories of native calls by position | refinement to one body per name; invariants: open calls are on the list, remembered functions have the name called at their position, positions are distinct; counterexamples |
| C123 | as C122 | as C122 |
| C124 | formatting of messages, lines of calls, exceptions, refused texts and files with imports; histories of errors | equality with the report put together from its parts; induction over calls, imports and histories; exact bounds for `System::error`; counterexamples |
| C125 | host functions of objects: `set`, `get`, `exists`, `erase`, `eraseAll`, `length`, `getKeys`; release of values that leave; histories with changes of memory | invariant by induction over the history (same keys, each value held, each object in one field alone); spec is a map with a list of keys |
| C126 | `bindScriptFunction` by path: split at dots, first name among the globals by number, fields, function of the class; single names; on top of the globals of C62 | induction over the path both ways; spec is what a script reaches and calls, with the values of the globals from C62's specification |
| C127 | the scan for the closing quote, field names, the table of constant strings, sums of literals, edits of literals | invariant: each entry has the text its key spells, by induction over the pieces; scan of an escaped text by induction; violated for backslashes at the end, long literals, edits |
| C128 | object literals: names compiled with the values between them, fields put one by one, `o[".."]` | induction over the fields on top of C127; spec is the order of first appearance and the last value |
| C129 | `Vm/Numbers`: the registered functions `Integer::parse` and `Float::parse`, chosen, remembered and given their argument by the functions of `Vm/Native`, with the text functions of `Base/Integer` and `Base/FloatText` | invariant of the remembered function by induction over the history of calls; the truncation is characterised by inequalities; spec in `NumbersSpec` |
| C130 | `isNumber` and `Integer::MAX_VALUE` in `Vm/Numbers` | cases over the kinds of values |
| C131 | `Core/Types`; specification in `Core/TypesAccept`: first and last function of a name, chains of bases | case analysis of the checks; inheritance decided by height of the base graph |
| C132 | `Compiler/Lexer` (`isPre`, `isPost`, `isSeparator`, `isSpecial`); specification: the text begins with a spelling | case analysis on the first two characters |
| C133 | `Module/Json` reader; specification `Gap`: what blanks and comments are (`Module/JsonComments`) | induction over gaps and comment bodies; monotonicity of the reader in its fuel |
| C134 | `Math` functions called with arguments of any kind: count, conversion, reading (`Module/MathFns.lean`) | by induction over the arguments; negations by `null`, objects and functions |
| C135 | `max`, `min`, `abs`, `floor`, `ceil`, `round` on IEEE-754 patterns | whole parts and their neighbours fit a double; order facts over the integers |
| C136 | `sin`, `cos`, `pow` over arbitrary C functions, with the conversions to and from `float` | a narrowed number has 24 bits; 16777217 has not |
| C137 | `random` in single precision over all values of `rand()` | rounding to 24 bits, case split on the binary order of magnitude |
| C138 | `Core/PathOs.lean` (contract of the file system), `Core/Path.lean` (`getDirectory`, `changeDir`, `compileFile`, imports, on byte strings); induction over the depth of imports with the record of opened files as invariant | partial, counterexamples for files of the root directory and backslashes |
| C139 | the same model; induction over the depth of imports, on normal and error ends | proved |
| C140 | `Module/Report.lean`: `System::assert`, `System::error` on top of `Vm/Format.lean` (C102) | case analysis over the value checked; messages by the theorem on formats in pieces; negation by a null pointer |
| C141 | `Module/Report.lean`: the functions of `Console` and the two streams | induction over the sequence of calls; spec is the concatenation of the texts that `String::format` gives |
| C142 | `Module/Clock.lean`: `System::clock` with its static start and the double arithmetic of `Vm/Float.lean`; a history gives the time passed and the setting of the system's clock for each call | order and accuracy of rounding (`Vm/FloatOrder.lean`), induction over the calls; counterexamples: clock set back, 9 ms |
| C143 | `Vm/Operation.lean`: `compare` on numbers | conversion to float and rounding are monotone (`Vm/FloatOrder.lean`), cases over the kinds |
| C144 | as C143 | as C143; counterexample with an integer of 54 bits |
| C145 | `Vm/Operation.lean`: `arith` and `compare` on numbers | rounding is monotone, sums of 53-bit integers are the same as integers and as floats; counterexamples |
| C146 | `Module/MathFns.lean`: `degToRad`, calls of native functions | multiplication and division by positive constants are monotone on floats |
| C147 | as C146 | two roundings of at most one part in 2^53 each; counterexamples for overflow and the least float |
| C148 | `Module/MathFns.lean`: `sqrt` by bits of the integer root, rounded | the integer root is exact, doubling keeps the rounding, rounding is monotone |
| C149 | `Vm/Operation.lean`: `arith` and `compare` on numbers | rounding is monotone and does not depend on the unit, so products of 53-bit integers are the same as integers and as floats; counterexamples |
| C150 | `Vm/Operation.lean`: `arith` and `compare` on numbers | a difference that is not zero is not rounded to zero, signs of floats; counterexamples |
| C151 | `Compiler/Parse.lean`: `quoteEnd`, `compile` | induction over the literal; counterexample with an escaped backslash |
| C51,C53 | string edits, escapes | list induction |
| C52 | DateTime comparison and `operator-` on day numbers | linear arithmetic over the calendar |
| C55–C57 | token recognisers of compiler_data.cpp with reads behind the NUL as UB | table lemmas; induction over the text, soundness and completeness against a grammar |
| C54 | `++`/`--` instructions | case analysis over value kinds |

## 5. Disagreements between the code and the properties

Each line: what the code does, and the theorem that proves it of the model (T), or (R) if it was only read in the code
and is excluded by a hypothesis of the partial theorem.

**Containers of `src/base`**
* Vector `get`/`set`/`erase` check the position against the capacity, not the length (T `vector_get_beyond_length_violated`,
  `vector_erase_beyond_length_violated`); assigning a never-filled vector does not clear the target (T
  `vector_assign_empty_violated`); inserting one past the end leaves an indeterminate element (T
  `vector_insert_past_end_violated`); (T `vector_insert_prefix_length_violated`).
* Removing a node from a list that does not hold it corrupts both lists (T `list_foreign_remove_violated`); the list
  destructor never ends on a non-empty list (T `list_destructor_diverges_violated`).

**Strings**
* Every `StringScriptObject::set` replaces escape sequences again, so copying, substring and split change strings with
  backslashes (T `copy_backslash_violated`, `substring_backslash_violated`, `split_script_backslash_violated`).
* `replace` throws if the result is empty (T `replace_whole_violated`); `"".contains("")` is false (T
  `contains_empty_violated`); splitting at an empty delimiter does not end (R).
* Case conversion throws for more than 32767 characters (T `case_conversion_long_violated`).
* `eraseAt(-1)`/`insertAt(-1)` write outside the buffer, `insertAt(length)` is refused, appending a cleared string throws
  (T `eraseAt_negative_violated`, `insertAt_negative_violated`, `insertAt_end_violated`, `append_cleared_violated`).
* An unknown escape deletes two characters (T `unknown_escape_dropped_violated`). A literal that ends in an escaped backslash
  is not terminated (T `literal_backslash_violated`).

**Integers, times**
* Negative integers do not parse; `toString` is wrong from 6755399441055749 on; the least integer overflows (T
  `roundtrip_negative_violated`, `roundtrip_large_violated`, `roundtrip_min_violated`).
* `isInteger` accepts `12 abc`, ` `, `b`, `1bxyz` (T `classification_violated`, `classification_binary_violated`).
* TimeSpan order disagrees with elapsed time for mixed signs (T `timespan_order_violated`).
* The DateTime constructor truncates its arguments to 32 bits (T `datetime_validation_violated`); `addMonths` with a negative
  count can leave the month ≤ 0 (T `addMonths_negative_violated`); `operator-` is wrong when clock order and date order differ (T
  `datetime_difference_violated`, `datetime_difference_negative_violated`).

* `addDays(24856)` overflows an `int`, `addSeconds(2^32)` adds nothing (T `spans_violated`). `addMonths` and `addYears` change fields
  without normalising: "31 February", month 0, stale `week_day` (T `month_later_violated`, `month_earlier_violated`, `weekday_violated`);
  a subtraction then changes its operands (T `sub_changes_violated`).
* `DateTime::toString(format)` lower-cases the format, so `MM`, `M`, `HH` and `H` never match; it is not registered for scripts (R).

**VM operations**
* Signed overflow of `+ - *` and unary minus, shift counts ≥ 64, `++` at the largest integer are undefined behaviour (T
  `int_sum_violated`, `shift_count_violated`, `increment_violated`).
* `int += float` (and `-=`, `*=`) reads the integer's bits as a float: `1 += 0.5` gives 0.5 (T `compound_assign_violated`).
* Constants holding undefined/null: comparison and typeof wrong, copying them is an error (T `const_undefined_violated`,
  `const_null_nan_violated`, `typeof_const_violated`, `const_undefined_source_violated`).
* Comparing a type with a non-type: not symmetric, `!=` not the complement (T `type_symmetry_violated`, `type_complement_violated`).
* Compound assignment and `++`/`--` change constants (T `const_update_violated`).
* `a,b = b,a` with strings or ref parameters does not swap (T `swap_violated`, `ref_swap_violated`).

**Script containers**
* Array indices are cut to 32 bits; float indices beyond `int` are undefined; string indices are unchecked (T
  `array_index_violated`, `array_float_index_violated`, `string_index_violated`).
* `eraseAt` beyond the end, `insertAt(-1)` (T `array_erase_violated`, `array_insert_negative_violated`); `pop` of an object with
  one holder uses it after it was freed (R).
* `extend(self)` never ends normally (T `extend_self_violated`); `array += array` is a type confusion (T
  `array_plus_assign_violated`).
* Array equality: `[undefined]==[0]`; not reflexive for undefined/null/function/nested containers; floats by bits (T
  `array_equal_violated`, `array_equal_refl_violated`, `array_equal_agrees_violated`); `contains` never finds objects (T
  `contains_violated`).

**Share manager**
* An object that lost its last holder in a block other than the one where it was created and is then held again is removed from the
  wrong list: `a,b=b,a` on two globals inside a function makes the next clean-up throw an internal error (T
  `refcount_swap_violated`).
* The counter is an `unsigned short` without check: 65536 holders look like none (T `refcount_wrap_violated`).
* `var o=[1]; var l=[o]; return o;` destroys the returned object when the block is left (T `return_survives_violated`). The same
  happens to `return l[0]`, an element that is not among the objects to return (R).
* `makeObjectShared` never succeeds (T `makeShared_never`).

**Slots of containers**
* T `advance_violated`: `list.next = list.next.next` frees the old element, and with it the one to be assigned, before that one gets its
  share.
* T `concat_violated`, `self_extend_violated`: `a + b` and `a.extend(a)` copy the slot of a nested object, which both deletes free.
* T `self_push_violated`: `a.push(a)`, then `a.erase(...)`: the element gives no share back, because it refers to the object that is
  released itself; the object is never freed.
* T `bracket_violated`: `a["k"] = {}` over a nested object makes a second slot and loses the first: the old object is never freed, and
  `clear` uses freed memory. With a dot it is right.
* T `clear_cuts_violated`: `clear` empties elements of the saved state. T `clear_leak_violated`: an object that refers to itself survives
  `clear`.

**Compiler**
* Cut-off texts are read behind their end or through a null pointer: `function f(`, `-`, `for(;`, `class `, `const A::x;` (T
  `open_parameters_ub`, `lone_minus_ub`, `for_semicolon_ub`, `class_no_name_ub`, `const_member_ub`).
* Everything from `static(` on is ignored without an error, and likewise from a method without a name, or from `function` followed
  by a lone carriage return, a blank and `(` (T `static_silent`, `static_silent_rest`, `class_silent`, `return_silent`).
* A `?:` cannot be the condition of `if`; a statement cannot begin with a name that begins with `import` (T
  `ternary_condition_rejected`, `import_name_rejected`).
* Folding: int-with-float comparison always false, int/float division reads bits, `1.0/-0.0`, string order compares closing quotes,
  long sums overflow a 4096 byte buffer (T `fold_int_float_compare_violated`, `fold_int_float_div_violated`,
  `fold_negative_zero_violated`, `fold_string_order_violated`, `fold_long_text_violated`).
* The peephole optimiser reaches across joins: `(c?x:y)+z`, `z+(c?x:y)`, `(a||b)==false` (T `ternary_left_violated`,
  `ternary_right_violated`, `logic_equal_violated`).
* `break`/`continue` out of a block that declares variables does not leave its scope; in a loop the table of 10 scopes overflows (T
  `scopes_balanced_violated`, `continue_in_block_violated`). The usual `case 1: { var y; break; }` is such a block.
* `for(init;;)` runs `init` in each round (T `for_without_condition_violated`); `for(;b;)` with a condition of one character is a syntax
  error (T `short_condition_rejected`).
* A `switch` without `case` or without statements is compiled to its bodies only: the condition is not evaluated, a `break`
  inside jumps to itself or to the loop around it (T `switch_condition_dropped_violated`, `break_without_case_violated`).
* A `switch` without `default` in which nothing matches, and `c ? f() : g();`, leave a value on the operand stack, which a later
  `return` returns too (T `switch_leaves_value_violated`, `conditional_call_leaves_value_violated`). A bare expression as third part of
  `for` does the same (R). Such a `switch` in a loop leaves one element per round, so the stack a function asks for when it is entered
  does not suffice, and nothing checks the pushes (T `stack_need_violated`, `stack_need_twice_violated`).
* `case f():` erases the value of the `switch` (R). The loop that resolves `break`/`continue` changes any instruction whose first
  operand is 250 or 249 (R). A syntax error in the condition of `while` dereferences NULL (R).
* Lexer: a carriage return without line feed ends the skipping of blanks (T `blanks_violated`); an unterminated block comment is
  accepted (specified so in `Blanks.openEnd`); `return-1`, `else//` are not recognised as keywords (T `keyword_violated`); `in` followed by
  a tab is not recognised (T `operator_tab_violated`); `.` alone is a numeral, `1e5` and `1.e5` are not (examples in `LexerProps.lean`);
  float literals pass through `strtof`, i.e. single precision (R).

**Calls**
* T `by_value_violated`: a by-value parameter that receives a variable holding a string shares the string object; assigning a
  string to the parameter rewrites the caller's string.
* T `const_argument_violated`: the read-only flag of a constant argument is copied; assigning the parameter is an error.
* T `many_args_violated`, `many_args_last_violated`: the argument count has four bits and the compiler does not check it; a call
  with 16 arguments passes none, one with 17 passes only the last.
* T `ref_forward_violated`: a `ref` parameter passed on by value arrives as a pointer to the variable.
* T `literal_unescaped_violated`: the text of a literal is unescaped once more when it is passed (and when it is returned).
* T `ref_missing_violated`: a missing `ref` argument is `undefined`, and using the parameter dereferences address 0.
* T `varargs_empty_violated`: a variable-argument parameter without arguments is `undefined`, not an empty array.
* T `multi_return_violated`, `surplus_values`: with more values returned than expected, the last ones are taken: `a = f()` with
  `return 1, 2` gives 2. A call from C++ takes the first (R).
* T `frame_table_violated`: when the main function does not fit in the stack, frame -1 is popped.
* T `stack_defaults_violated`: default arguments are pushed before the called function's space is checked.
* T `stack_refused_violated`: refusing a call writes one element after the called function's variables, outside the stack if they
  do not fit.
* T `stack_call_violated`, `stack_call_keeps_function`: `a[0](2)` and `f(1)(2)` leave the called function on the operand stack below the
  result; `1 + a[0](2)` adds the function and 2.
* T `field_call_violated`, `field_call_takes_operand`: `o.f(2)` where `f` is a variable of `o` holding a function takes one element too many
  off the operand stack; with nothing pending the result is written over the last local variable.
* T `argument_order_violated`, `argument_read_late`: in `f(x, x++)` the first argument is the value of `x` after the second.
* T `super_chain_violated`: `super(1).m(2)` compiles both calls to calls of the base and drops the code of the first argument.
* R: a native function that catches the error of a script function it called and then calls another one resets the frame index
  while outer script functions are still running (`vm.cpp` 273, 302).
* T `late_constructor_skipped`: `new A(..)` looks the constructor up when it is compiled. In a method that stands before the
  constructor in the class (a factory function, `clone`, an operator that returns a new `A`), no constructor is found: the
  object is made, the arguments are evaluated and dropped, and the constructor is never called. With a base class that has a
  constructor, that one is called instead. `compiler_object.cpp` 470-492.
* T `dotted_name_ignored`: `new o.A()` makes an object of the class `A` if there is one, whatever `o.A` is.
  `compiler_object.cpp` 354.
* T `sixteen_arguments`: `new A(..)` with sixteen arguments takes the last argument for the constructor, and its value is the last but
  one.
* T `self_base_ub`: `class A extends A` is accepted, and `new A()` overflows the C++ stack. `ClassScriptObject.cpp` 112-127.
* R: a name in the initialiser of a field is looked for only among the constants and methods of the class
  (`compiler_symbol.cpp` 172, `ScriptScope.cpp` 246): `class A { var x = g; }` is refused whatever global `g` is. When the name is
  found, as in `class A { const c = 1; var x = c; }` or `var A::x = g;` outside the class, it is compiled as a local of the
  initialiser (`LOAD_LOCAL`), which has none, so a cell of the operand stack is read instead. The initialiser is not linked
  either (`compiler_keyword_function.cpp` 20-104 lacks what `compiler.cpp` 637-656 does), and its need of stack is never computed.
* R: `new A(1,)` is accepted.

**Host**
* An object that a function returned to the host has no share counter. Passed to a function it gets one, and is freed when that ends
  (T `pass_back_violated`); stored by the function in a variable it dangles when the host gives it back (T `pass_store_violated`);
  returned by the function it is freed twice (T `pass_return_violated`).
* `return a, b`: the host gets the first, the second is never freed (T `second_value_violated`).
* `return g` with a global variable gives the host an object that is not kept for it, and that it cannot give back
  (T `return_global_violated`).
* `delete x` reads the type of the object after it is freed, if `x` was the last variable that referred to it (T `delete_violated`).
* Nothing compares the number of arguments of a bound script function with its parameters: parameters without argument have what the
  stack had there, whose share is then given back (R).
* After a script error the arguments in `deref_native_args` are not given back (R, only for objects that were waiting).

**Imports and refused scripts**
* A script that is refused leaves its variables declared, so that the corrected script is refused too (T `refused_var_violated`), its
  imports done (T `refused_import_violated`), and its statements before the error as the code that `run` runs (T `run_refused_violated`).
* A file that could not be read or had an error is never compiled again: the name is noted first (T `missing_file_violated`,
  `corrected_file_violated`). `compileFileAndRun` of a file that was compiled before runs the script compiled last (T `file_again_violated`).
* Files are known by their names as they are written, while names are relative to the importing file: a file can be taken in twice
  (T `two_names_violated`, and for files that import each other T `cycle_violated`) or not at all (T `same_name_violated`).
* `import` in a function puts the imported code into that function but its variables into the main scope (R). `File::exists` reads an
  uninitialised `stat` buffer if the file does not exist (R).

**Types and native functions**
* `class A extends A` is accepted; every inheritance test on `A` recurses for ever (T `inheritance_decided_violated`).
* A class whose base does not exist is registered half and blocks its name (T `failed_registration_violated`,
  `failed_class_blocks_name`).
* A function added to a base after the heir was declared is not found on the heir (T `lookup_nearest_violated`); `this.f()` of such a
  function dereferences null (T `this_call_violated`); native functions registered before `extends` are hidden by the base's ones
  (T `lookup_native_order_violated`).
* The function remembered at a call site `o.name` is checked by name only: the next object, of another class, gets the first
  object's function (T `call_site_violated`).
* The native function remembered at a call site is checked for castability only; `null` is passed as pointer where a fresh search
  raises an error (T `calls_resolve_violated`).
* Overloading on int / float does not work in either order (T `float_chooses_int`, `int_chooses_float`); a float chosen for `int *` is then
  refused by the conversion (T `chosen_args_pass_violated`).
* `canStackElementCastTo` accepts int → float, `stackElementTo` refuses it (T `cast_agrees_violated`); castability of a null object reads
  through the null pointer (T `cast_null_object`). A float out of range converted to int is undefined (R); converting to `String` by value
  writes a `String` into an integer (R).
* `instanceof` on an object read from a container is always false (T `instanceof_violated`).
* Registering a member function under the name of a member variable dereferences null (R).
* An operator is asked only of the class of the left object: `a - c` is an error when `C` defines `_sub` and `A` does not (T
  `binary_operator_violated`).
* A script class does not inherit `_addassign` and the other assignment operators, `_postinc` and the like, nor `_set`: `b += 1` and `b++` are
  errors and `b = v` replaces the object (T `inherited_not_used`, `compound_operator_violated`, `step_operator_violated`,
  `set_operator_violated`).
* A class cannot redefine a static operator it inherits: the declaration is refused as a repeated symbol (T `redefinition_refused`).
* An operator function with more parameters than operands reads stale stack cells in the extra ones (T `operands_only_violated`).
* A property whose `_get` declares a local variable reads `undefined` (T `property_read_locals`), one whose `_get` returns nothing reads stale
  stack (T `property_read_stale`), and so does `o.p++` when `_postinc` returns nothing (T `property_bump_violated`).

**Iteration and `in`**
* Removing the field of the current round inside `for(k,v in o)` frees the node the iterator stands on; the step to the next round reads it
  (T `object_loop_violated`, `object_loop_erase_current_violated`).
* `0 in s` is true for every string and `353 in "a"` is true: `strchr` on the low byte (T `in_char_violated`); `"" in ""` is false
  (T `in_substring_violated`).
* `o in [o]` is false for objects that are no strings (T `in_array_violated`).
* `1 in {..}` pushes no result, so the following instruction pops a stale element; so does `k in o` when `k` was read from a field;
  `[1] in {..}` reads the array as if it were a string (T `in_object_violated`).
* `for(x in c)` refuses a container that was read from a field: `IT_INIT` tests for `OBJECT`, not `OBJECT_IN_CONTAINER` (R).
* With four or more loop variables the padding is put before the value, so the variables are shifted (R).

**Scopes and names**
* A function written inside a function does not see the locals of the outer one: the name is linked to a global of that name, or to
  nothing (T `lexical_lookup_violated`).
* `{var x;} var x;` is refused at the top level of a function (the closed block is searched too) but accepted inside a block
  (T `declare_iff_free_violated`).
* A function named like a visible variable, type or function of an outer block: the error message passes the line number for a `%s`,
  undefined behaviour (`ScriptFunction.cpp` 650-656; T `compiles_defined_violated`).
* A function declared in a block without variables: its `Symbol` is deleted at the end of the compilation while the instruction that
  calls it holds a pointer to it (T `resolved_kept_violated`).
* `import` in the middle of a script deletes the block scopes compiled so far, which `PUSH_SCOPE` instructions still point to (R).

**Globals, constants, saved states**
* `{var a;}`, then a constant registered by the host, then `var y;`: the constant and `y` share a stack slot; with three variables in
  the block the next compilation writes behind its table (T `constant_aliased_violated`, `constant_overflow_violated`).
* `{var a;} class A{ const K=1; }`: `A::K` reads the slot of `a`, because the slot is noted before the variables are reordered
  (T `class_constants_violated`). `const A::x` inside a function is registered among that function's locals but in the main scope (R).
* `{var a;}`, `saveState()`, `var x;`, `clear()`: the global `x` is still there (T `clear_restores_globals_violated`).
* `clear()` does not undo the redefinition of a saved function (T `clear_restores_violated`), leaves a member added to a saved type
  with its function object deleted (T `clear_member_violated`), and leaves the call of a function defined after `saveState()` bound
  to a deleted symbol (T `clear_safe_violated`).
* `clear()` empties the list of functions with unresolved names: a saved function with such a name is never linked again
  (T `clear_relinks_violated`).

**JSON and float texts**
* Strings and field names are written without escapes: a string with a quote gives a text that is no JSON and reads back as something
  else (T `text_is_json_violated`, `roundtrip_string_violated`). The text is unescaped twice on the way back, so the JSON escape `\n`
  is refused (T `accepts_violated`).
* `null` reads back as `undefined`, integers as floats, floats through `%f` and `strtof` (T `roundtrip_null_violated`,
  `roundtrip_int_violated`, `roundtrip_float_violated`).
* An object of a class with added fields misses the comma between the two groups; a function in an array leaves `[true,]`
  (T `text_comma_violated`, `text_function_violated`).
* Cycles are only detected through the object the call began with: an array that contains itself, or two objects inside a third that
  refer to each other, recurse until the stack is exhausted (T `terminates_violated`, `terminates_objects_violated`).
* `/*a`, `1//` and numbers of 1024 or more bytes read or write outside their buffers (T `defined_comment_violated`,
  `defined_line_comment_violated`, `defined_number_violated`).
* `[1,] x` is accepted; `[1\r ]` is not (T `accepts_more_violated`, `accepts_cr_violated`). A word that is no number is `undefined`.
* The second argument of `serialize`, documented as `minimized`, is passed as `is_formatted` (R). Getters of plain objects' member
  properties are called while writing (R, not modelled).
* Float literals, `parseFloat` and JSON numbers go through `strtof`: `0.1` is not the nearest `zs_float`, `1e39` is refused
  (T `literal_nearest_violated`, `literal_range_violated`, `FloatText.roundtrip_violated`).

**System::eval**

* The number of values that evaluated code returned is counted from the end of its parameters. Code that ends without `return` and
  is not changed by `eval` (a single call such as `f()`, or code that `RET` of an untaken `if(c){return …}` ends) leaves the stack
  at the begin of the parameters, so the count is negative and `undefined` is written below the arguments of `eval` if there are more
  than two parameters: in `10+System::eval("f()",{a,b,c})` the 10 is lost (T `eval_operand_lost_violated`).
* `a,b=System::eval("return 1")` gives `a` `undefined` and `b` 1 (T); `a=System::eval("return 1,2")` gives 2 (T);
  `a,b=System::eval("3,4")` gives `a` 4 although the code does not return (T).
* A compile error of the evaluated code leaves the shares that were taken on the parameter objects (R). The text is unescaped a
  second time (R). The number of parameters is cut to 8 bits (R). `System::eval("1+2")` is `undefined`, not 3 (R, and an instance
  of `eval_partial`).

**Formatted text**

* The result of `String::format`, `Console::outln`, … is unescaped once more, the format text twice: arguments with backslashes are
  changed (T `format_backslash_violated`).
* The error message about a wrong argument number is written with `sprintf` to a buffer of 512 bytes: any format text with 450 or
  more characters between `{` and `}` that are no number overruns it, if there is at least one argument (T `format_long_violated`).
* `{0:d2,3}` disappears from the output (T); indices are cut to 32 bits, `{4294967296}` is `{0}` (T); there is no way to write a `{`
  that is followed by `}`: `{"a":{0}}` is an error (T). The least integer is undefined behaviour (T), see Integer text.
* `dN` has no effect on floats (R).

**Values between host and scripts**

* Texts that the host gives as `const char *` or returns as `String` are unescaped: the path `C:\temp` arrives with a tab
  (T `roundtrip_backslash_violated`).
* `zs_int *`, `zs_float *`, `bool *` and `StackElement *` taken from an element by value, or as the result of a bound function, point
  into a local variable that is gone (T `roundtrip_dangling_violated`).
* A null `zs_int *` arrives as `undefined` and cannot be taken back; a null `const char *` comes back as empty text (T). A
  `ScriptFunction *` cannot be given to a script (T).
* A `String *` that is given to a script is used by the script until the string object ends, also after the host destroyed the
  `String` (T `given_string_freed_violated`).
* `ArrayScriptObject::push` and `set` refuse an object that is shared already, for example because a script has it
  (T `array_twice_violated`).
* A pointer to an object of a class is taken as pointer to a base class without adjusting it (R). The constructor of
  `ClassScriptObject` computes the addresses of native member fields from `c_object` before it is set (R).

**Strings as values**

* Assignment of a string writes into the object the variable has, which array elements, fields and parameters may share:
  after `s="a"; x=[s]; s="b"` also `x[0]` is `"b"` (T `shared_element_violated`, `shared_parameter_violated`).
* Every store, concatenation and method unescapes the text again (T `backslash_violated`).
* `"a".append("b")` changes the literal for the rest of the program (T `literal_method_violated`); so does `+=` on the
  parameter of a setter in `o.x = "a"` (T `literal_setter_violated`), while `=` on it is an error (T
  `setter_parameter_violated`).
* An operator that a class defines in the script cannot take a string literal: `o - "a"` and `o == "a"` throw "try to share constant
  script object" (T `literal_operand_violated`).

**Stored methods**

* Printing a stored method whose object has ended dereferences NULL: `src/ScriptEngine.cpp` 429-432 does not check what `vm_call.cpp`
  234 checks (T `print_violated`).
* A function bound by the host to a stored method has the bare address of the object: after the end of that object it runs on freed memory,
  or on whatever object is there then (T `bound_violated`, `bound_other_object_violated`).
* `RefScriptObject::setRefObject` with an object attaches to the *old* object (`RefScriptObject.cpp` 30-33), NULL at first; no caller
  passes one (R).

**Errors**

* An exception thrown by an instruction (sharing a literal string, `src/vm/vm_share_manager.cpp` 75-77; `new` of a class that extends a
  native type without constructor, `src/core/object/ClassScriptObject.cpp` 93) passes `vm_execute` without a clean-up, and the check of
  `src/vm/vm.cpp` 283-285 then refuses every later main script (T `thrown_violated`, `thrown_leaves_violated`).
* An error in a constructor leaks the object, an error before a function has begun leaks objects among its arguments, a failing call of the
  host leaks the objects made for it, and so does `eval` of a text that does not compile (T `constructor_violated`,
  `refused_call_violated`, `host_argument_violated`, `eval_argument_violated`).
* A function of the host that catches the exception of a callback returns into a script function whose entry of the table has been popped
  (T `guarded_violated`).

**The program `zs`**

* T `end_of_input_violated`: at the end of the input (Ctrl-D, or a file piped to it) `Console::getline` copies to a null pointer
  (Console.cpp 53): the result of `fgets` is tested but the copy is made anyway.
* T `endless_violated`, `clear_again_violated`: if there is a block to copy to (after `clear` or `save`), the last command is done
  again, and then `main` asks for ever: it goes on at `-1` (zs.cpp 87).
* T `long_line_violated`, `pieces_violated`: a line of 255 bytes or more is not given a block (Console.cpp 43): undefined behaviour,
  or, after `clear` or `save`, run in pieces.
* T `status_violated`: the exit status is zero whatever happens.
* R `--print-byte-code-system` sets only `OPTION_PRINT_ALL_BYTE_CODE`, which nothing reads.
* R `File::exists` tests an uninitialised structure if `stat` fails (File.cpp 18-21); `File::readText` leaves the file open when it
  throws.

**Dates as texts** (C118, C119)

* T `half_first_violated`: `parse` of `"tt hh"` reads `PM 03` as three in the morning: `hh` sets the period to AM
  (DateTime.cpp 447-450).
* T `separator_first_violated`: a format that starts with something else than a letter throws: `pattern_temp[-1]` of an empty string
  (DateTime.cpp 432).
* T `other_years_violated`: the text of `toString()` is read back only for years of four digits.
* T `capitals_violated`: `toString(format)` converts the format to small letters first (DateTime.cpp 152): `yyyy-MM-dd` has the minutes
  in place of the month, and `HH` is never a clock with 24 hours.
* T `clipped_violated`: `mms` writes the minutes only.

**Calls by the host** (C120, C121)

* T `missing_argument_violated`: when the host calls a script function with fewer arguments than it has parameters (nothing in
  `bindScriptFunction` compares the numbers), the missing parameters are neither their defaults nor `undefined` but what an earlier
  evaluation left in these cells of the stack (`vm.cpp` 290-334 copies what it is given; defaults are only filled in by `vm_call`).
* R: when such a left over cell holds an object that has since been destroyed, the function uses it, and releases it once more
  when it ends.
* R: arguments beyond the parameters that are objects are shared (`vm.cpp` 308-334) in cells which the function then uses for its
  variables (`vm_script_function.cpp` 95), so that they are never released.
* R: a script compiled by a native function while another script waits for it declares its variables where the pending operands
  of the waiting one are (`ScriptFunction.cpp` 602-607).

**Functions defined again** (C122, C123)

* T `stale_call_violated`: `clear` empties a function that is defined again but keeps `instruction_last_native_call`
  (`ScriptFunction.cpp` 741-756; `clearFunctionLastCalls` is only used for the main function and `eval`, `compiler.cpp` 84). A call
  of an overloaded native function at the same position of the new code, with arguments that can be converted, runs the
  function that the old code called: after `f(x){ return Integer::parse(x); }` has run, `f(x){ return Float::parse(x); }` parses an integer.
* T `emptied_violated`, `never_violated`: a syntax error in the body of a function leaves it registered without instructions; the
  next call reads through the null pointer. T `kept_violated`: functions before the error stay defined.
* R: a function that defines itself again while it runs (with `System::eval`) goes on in freed instructions.
* R: a name that is found to be a type is never taken off the list of unresolved names (`ScriptFunction.cpp` 797-811), so that its
  function is linked again after every script.

**Reports of errors** (C124)

* T `percent_violated`, `percents_violated`, `field_violated`, `literal_violated`, `operator_violated`, `file_name_violated`: a message is
  formatted, and what comes out is taken for a format again (`vm_set_file_line_error` → `vm_set_error` → `throw_exception_file_line`,
  `vm.cpp` 99-118 and 365; `compiler.cpp` 129; `ScriptEngine.cpp` 970-973). `System::error("100%s")` reads an argument that is not there.
* T `error_exact`, `long_error_violated`: reports of more than 4094 bytes are cut. T `long_refusal_violated`: messages of the compiler
  and lines of calls overflow a buffer of 4096 bytes.
* T `stale_file_violated`: `vm_reset_error_vars` keeps the file, so that an exception of a host function is reported for the file of the
  error before.
* T `text_import_violated`: a refused import in a text that is not from a file asks for the name of an empty path, and `findLastOf` reads
  the byte before the text.
* R: `"a" % 1` is refused with the format `"… %s % %s"`, whose `% %` is a conversion (`compiler_expression_optimize.cpp` 295).
* R: the errors of folding constants (`String::formatFileLine`), of JSON (a buffer of 1024 bytes) and of assigning to a member property
  (`vm_store.cpp` 147-157) put texts of the script into fixed buffers.
* R: `SystemModule_error` goes through a null pointer if `String::format` fails.
* R: `File::exists` does not look at what `stat` returns and reads an uninitialised structure for a missing file (`File.cpp` 13-26).

**Objects in the hands of the host** (C125)

* T `object_zero_key_violated`: keys are `String`s to the host, but `MapString` sees them up to the first zero byte, so different keys are
  one field (`ObjectScriptObject.cpp` 63-75, `toConstChar`).
* T `object_twice_violated`: an object that a script or a container already has is refused (`vm_create_shared_object`,
  `ObjectScriptObject.tcc` 35-38), also under the key where it is.
* R: `erase` of a key that is not there returns false but also leaves an error set in the machine (`ObjectScriptObject.cpp` 128-131): if a
  native function that a script called did so, the script fails although the native function succeeded.
* T `findLastOf_empty_violated` (C51): `String::findLastOf` reads the byte before an empty string (`String.cpp` 636-659).

**Binding functions by path** (C126)

* T `bind_nested_violated`: a field holds a script object through a container slot (`vm.cpp` 511-520), but binding only goes through fields
  with the property `OBJECT` (`ScriptEngine.tcc` 1750-1753): `a.b.f` is refused although `a.b.f()` is a good call.
* T `bind_field_function_violated`: functions kept in fields are not looked for (`ScriptEngine.tcc` 1776).
* T `bind_constant_violated`: the number of a variable in the list is taken for its slot (`ScriptEngine.tcc` 1717-1721). After a script with
  variables in blocks a registered constant has another slot, and the function is bound to the object that a block variable left behind.
* R: the bound function keeps a plain pointer to the object: it is not shared, and dangles when the script drops the object.

**Constants and object literals** (C127, C128)

* T `literal_backslash_violated`, `literal_backslash_takes_more_violated`, `field_backslash_violated`: the quote after an escaped backslash
  is taken for an escaped quote (`compiler_symbol.cpp` 85, `compiler_object.cpp` 85). A literal is refused or takes in what follows; in a field
  name the compiler goes on with a null pointer (`compiler_object.cpp` 94, 183, 203).
* T `literal_long_violated`: a literal of exactly 4096 characters is read past the end of its buffer (`compiler.cpp` 39-55).
* T `sum_backslash_violated`: a sum of literals is unescaped once more when it is registered (`compiler_expression_optimize.cpp` 396).
* T `edit_changes_others_violated`, `object_after_edit_violated`: literals that look alike and field names share one string object, which the
  editing methods change: after `"a".append("b")` the object `{a: 1}` has the field `ab` and no field `a`.
* T `field_empty_violated`: `{"": 1}` is refused although `o[""]=1` is not.

**Conversions to numbers** (C129, C130)

* T `Integer::parse("-5")` is 0: every text with a minus sign is (`integer_minus_violated`), while `" -5"` with a blank is -5 and `"1b7"` is 1 (`integer_text_violated`).
* T `Integer::parse` of NaN, an infinity or a float that does not fit is undefined behaviour (`integer_float_undefined`).
* T `Integer::parse(null)` is an error when it is the first execution of the call; after a number it is 0, after a text a null pointer is read (`integer_null_violated`); a function after a number yields its address, a function or an object of a script class after a text is read as a `String` (`integer_function_violated`). The same for `Float::parse` (`float_null_violated`).
* T `Float::parse("1e39")` is 0 like any text that is not a number (`float_text_violated`).
* T `Float::MAX_VALUE` is the greatest single precision number, floats are double precision (`float_max_violated`).

**Comments in JSON, compound assignment of arrays** (C133, C18)
* A comment directly behind a number in a JSON text becomes part of the number, which then is no number: `[1/**/]` gives
  `[undefined]` (T `comment_number_violated`, `comments_violated`).
* `a += b` on arrays appends `a` to itself and does not look at `b` (T `array_append_violated`).
* `x += y` with `y` an undefined constant is not refused as with an undefined variable, because the constant's flag makes its
  properties differ from 0 (T `compound_non_numeric_exact`).

**Mathematical functions** (C134, C135, C136, C137)

* T: `Math::abs(null)` (and every other function with `null`) reads a null pointer; an object of a script class or a function is read as if it
  were a float. `stackElementTo` hands these over unchecked.
* T: `Math::max(nan, 1)` is 1 and `Math::max(1, nan)` is not a number.
* T: an integer of more than 53 bits is rounded to a float before it is used: `Math::floor(9007199254740993)` is 9007199254740992.
* T: `sin`, `cos` and `pow` are the single precision functions `sinf`, `cosf`, `powf`: `Math::pow(16777217.0, 1)` is not 16777217, whatever
  the C library does.
* T: `Math::random()` can be exactly 1: the 64 greatest values of `rand()` are rounded up to 2^31 in single precision. An index
  `Math::random() * length` is then out of range.

**Directories of files** (C138, C139)

* T: a file of the root directory, `/x.zs`, compiled from another directory: `getDirectory` gives the empty text, `chdir("")` fails, the result is not looked at, and what the file imports is looked for in the directory of the process (`root_file_violated`).
* T: on POSIX a backslash is an ordinary character of a name, but it is taken for a separator: a file `a\x.zs` is compiled in directory `a` if there is one (`backslash_violated`).
* R: `File::exists` (`File.cpp` 17-24) reads an uninitialised structure if `stat` fails; `Directory::exists` (`Directory.cpp` 62) looks for the two characters `\/` one after the other instead of one of them, and accepts any kind of file.

**Messages and output** (C140, C141)

* T: `System::assert(false,"{x}",1)` and `System::error("{x}",1)`: `StringScriptObject::format` fails and returns a null pointer, which `SystemModule_error` (`SystemModule.cpp` 217-219) uses (`assert_braces_violated`).
* T: `Console::out(x)` of an undefined `x` writes `Undefined`, `Console::error(x)` nothing and `Console::errorln(x)` an empty line (`undefined_violated`); `Console::out()` writes `Undefined` too.

**Clock** (C142)
* T The start of the clock is read from `system_clock`, which the user can set: when it is set back, `System::clock()` gives less than before, down to negative seconds (`clock_violated`).
* T The milliseconds are multiplied by the rounded 1/1000 and not divided by 1000: 9 ms are 0.009000000000000001 (`clock_nearest_violated`).

**Order of numbers** (C144, C145)
* T Integers are converted to double before they are compared with floats: 9007199254740993 == 9007199254740992.0 and 9007199254740992.0 == 9007199254740992, but the integers differ (`ordered_violated`, `le_transitive_violated`).
* T For the same reason adding 1 to both sides of 9007199254740993 <= 9007199254740992.0 makes it false (`add_violated`); the sum of integers may overflow (`add_overflow_violated`).

**Angles** (C147)
* T `Math::degToRad` multiplies before it divides: 2^1023 degrees are infinite radians, although the result would be a float (`degrees_violated`).
* T Very small angles lose their digits: the least float gives 0 (`degrees_small_violated`).

**Products in order** (C149)
* T 9007199254740993 <= 9007199254740992.0, but three times the first is greater than three times the second (`mul_violated`); products of integers that overflow are undefined behaviour (`mul_overflow_violated`); 0 <= 1, but 0 * infinity is not a number (`mul_infinity_violated`).

**Comparing by subtracting** (C150)
* T Infinity equals infinity, but their difference is not a number (`difference_violated`); the difference of the smallest integer and 1 is undefined behaviour (`difference_overflow_violated`).

**End of strings** (C151)
* T A string literal cannot end with a backslash, not even with an escaped one: the quote behind `"\\"` counts as escaped (`strings_end_violated`), and a script with it is refused (`backslash_end_rejected`).

## 6. Axiom check

`vcheck` replays every module through the kernel and reports `n_sorry: 0`, `n_trusts_compiler: 0`. `#print axioms` on the
theorems of `MANIFEST.json` gives subsets of `propext, Classical.choice, Quot.sound`; `decide +kernel` is used for closed
statements (kernel evaluation, no compiled code).

## Wrong programs that no theorem rejects
`seeded/LOG.jsonl` has one line per edit tried, also for edits that survived. A line with no failed theorem and the note "survived" is an
edit that no theorem rejected when it was tried. Some of them cannot be seen from outside (more fuel, the word stored with `null`, texts of
unreachable constants) or were in definitions that have been removed since; others are places where the theorems are weak, such as the
waiting list of `Vm/Host.lean` (`unref`, `derefArgs`). Where a later line repeats the edit as a rerun, a theorem that was added since rejects it.
