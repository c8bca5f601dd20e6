{"id": "C01", "title": "String-keyed map is a finite map", "statement": "After any sequence of set / get / erase / clear calls on a string-keyed (or int-keyed) map, get(k) reports the value of the most recent set(k) not followed by erase(k)/clear, and reports 'absent' exactly when there is none; erase of an absent key throws and changes nothing.", "quantifier": "all finite histories of map operations, all keys, all values, all map sizes below the documented maximum", "why_tests_cant": "A test exercises a few keys; the sorted-array/binary-search bookkeeping has to stay right after every possible interleaving of inserts and erases.", "anchors": ["src/base/MapString.cpp: MapString::set/get/erase/search/newSlot/pushSlot", "src/base/MapInt.cpp"]}
{"id": "C02", "title": "Object fields are enumerated once each, in insertion order", "statement": "Iterating a map (foreach over an object) visits every live key exactly once, in the order in which the live keys were first inserted, whatever order the keys compare in, and then ends.", "quantifier": "all histories of set/erase preceding the iteration", "why_tests_cant": "Order depends on the whole history of inserts and erases, not on the final contents.", "anchors": ["src/base/MapString.cpp: MapString::set/erase, MapStringIterator::next/end", "src/core/object/ObjectIteratorScriptObject.cpp"]}
{"id": "C03", "title": "Array storage behaves as a sequence", "statement": "After any history of push/insert/erase/pop/set/concat/clear/resize with in-range positions the container's contents equal the mathematical list obtained by performing the same operations on a list, and positions at or beyond the current length are rejected.", "quantifier": "all histories, all element values, all lengths", "why_tests_cant": "Reallocation and shifting happen at particular lengths; stale slots between length and capacity are only visible after particular histories.", "anchors": ["src/base/Vector.tcc: Vector::push/insert/erase/get/set/pop/resize/concat/pushSlot"]}
{"id": "C04", "title": "Intrusive list stays a ring", "statement": "Any sequence of insertNode/removeNode calls keeps the list a well-formed doubly linked ring containing exactly the attached nodes in attachment order; attaching an attached node or removing a foreign node is rejected and changes nothing.", "quantifier": "all histories of attach/detach over all node sets", "why_tests_cant": "Pointer surgery has different cases for the head, tail, middle and singleton nodes reached through different histories.", "anchors": ["src/base/List.tcc", "src/vm/vm_share_manager.cpp: vm_insert_shared_node/vm_deattach_shared_node"]}
{"id": "C05", "title": "substring(start,end) is the inclusive slice and never leaves the string", "statement": "For every string and every pair of integers the script method substring(start,end) either reports an error (start negative) or returns exactly the characters at positions start..end (end inclusive, negative end counted from the back, end clamped to the last character), and never touches memory outside the string.", "quantifier": "all strings and all pairs of 64-bit indices", "why_tests_cant": "Index arithmetic with negative and clamped ends has unboundedly many combinations.", "anchors": ["src/core/object/StringScriptObjectZs.cpp: substring", "src/base/String.cpp: String::getSubstring"]}
{"id": "C06", "title": "split inverts join", "statement": "Splitting a string at a delimiter yields pieces that contain no delimiter and whose concatenation with the delimiter in between is the original string.", "quantifier": "all strings, all delimiters (character and non-empty string)", "why_tests_cant": "Leading/trailing/adjacent/overlapping delimiters of arbitrary position.", "anchors": ["src/base/String.cpp: String::split(char), String::split(const String &)"]}
{"id": "C07", "title": "replace terminates and replaces left-to-right occurrences", "statement": "replace(old,new) terminates and returns the string in which the non-overlapping left-to-right occurrences of old have been replaced by new, even when new contains old.", "quantifier": "all strings, all non-empty patterns, all replacements", "why_tests_cant": "Termination with self-containing replacements cannot be tested for every string.", "anchors": ["src/base/String.cpp: String::replace"]}
{"id": "C08", "title": "Copying a string preserves its characters", "statement": "Assigning a string value to a variable, passing it by value or storing it in an array yields a string with exactly the same characters.", "quantifier": "all strings", "why_tests_cant": "Only strings with particular backslash patterns are affected.", "anchors": ["src/core/object/StringScriptObject.cpp: StringScriptObject::set", "src/base/String.cpp: String::unescape", "src/vm/vm_store.cpp"]}
{"id": "C09", "title": "Searching strings", "statement": "contains/startsWith/endsWith/indexOf answer exactly according to whether (and first where) the needle occurs in the haystack.", "quantifier": "all haystacks and needles", "why_tests_cant": "All positions and overlaps.", "anchors": ["src/base/String.cpp: find/startsWith/endsWith/contains"]}
{"id": "C10", "title": "Case conversion", "statement": "toLowerCase/toUpperCase keep the length, map every character independently, are idempotent, and terminate without leaving the buffer, for strings of every length.", "quantifier": "all strings of all lengths", "why_tests_cant": "The loop index is narrower than the length; only strings above 32767 characters expose it.", "anchors": ["src/base/String.cpp: toLowerCase/toUpperCase"]}
{"id": "C11", "title": "Integer text round trip", "statement": "For every integer n the text printed for n parses back to n.", "quantifier": "all 64-bit integers", "why_tests_cant": "2^64 values; failing ones are sparse.", "anchors": ["src/base/Integer.cpp: Integer::toString/parse"]}
{"id": "C12", "title": "Integer literal classification", "statement": "A token is classified as a decimal / hexadecimal / binary literal exactly when it has the literal grammar ([0-9]+, 0x[0-9a-f]+, [01]+b).", "quantifier": "all character strings", "why_tests_cant": "Infinitely many tokens.", "anchors": ["src/base/Integer.cpp: Integer::isInteger"]}
{"id": "C13", "title": "TimeSpan ordering", "statement": "The six comparison operators on time spans are consistent with each other and form a total order agreeing with elapsed time.", "quantifier": "all pairs and triples of time spans the constructor can build", "why_tests_cant": "Ranges over all triples.", "anchors": ["src/base/TimeSpan.cpp"]}
{"id": "C14", "title": "DateTime validation", "statement": "The DateTime constructor accepts a (year, month, day, hour, minute, second) tuple exactly when it denotes an existing calendar date and clock time.", "quantifier": "all integer tuples", "why_tests_cant": "All years, including the century leap rules.", "anchors": ["src/base/DateTime.cpp: DateTime::set, _isLeapYear"]}
{"id": "C15", "title": "DateTime month arithmetic", "statement": "addMonths(n) moves the date by n calendar months: resulting (year*12+month) is the old one plus n and the month stays in 1..12.", "quantifier": "all dates and all integers n, negative included", "why_tests_cant": "All signs and magnitudes.", "anchors": ["src/base/DateTime.cpp: addMonths/addYears"]}
{"id": "C16", "title": "Arithmetic result kinds and zero divisors", "statement": "For all operand values: int op int is an int for + - *, any float operand makes the result a float, / and % always give a float, a zero divisor always gives a script error (never a crash), non-numeric operands give an error or a metamethod call.", "quantifier": "all operand values of all kinds", "why_tests_cant": "All value pairs of all kinds, through generic and specialised instruction forms.", "anchors": ["src/vm/vm_operation.h: VM_OPERATION_ARITHMETIC/DIV/MOD/ADD"]}
{"id": "C17", "title": "Comparison laws", "statement": "For values of comparable kinds == is symmetric and reflexive, != is its complement, < and >= (and > and <=) are complements, a<b iff b>a, and undefined/null are equal only to themselves.", "quantifier": "all pairs of values", "why_tests_cant": "All pairs.", "anchors": ["src/vm/vm_operation.h: VM_OPERATION_COMPARE", "src/vm/vm_operation.h undefined/null handling"]}
{"id": "C18", "title": "x op= e means x = x op e", "statement": "For every variable content and operand a compound assignment leaves in the variable the same value (and kind) as the plain binary operation would produce.", "quantifier": "all operand values of all numeric kinds, all compound operators", "why_tests_cant": "Int/float representation mix-ups depend on the bits of the value.", "anchors": ["src/vm/vm_operation_assign.h", "src/vm/vm_operation.h"]}
{"id": "C19", "title": "Index accesses stay in range", "statement": "a[i] on an array or string either yields the i-th element (0<=i<length) or raises an error; no other element and no memory outside is ever touched.", "quantifier": "all containers and all 64-bit integer (and float) indices", "why_tests_cant": "Truncation only shows for indices beyond 32 bits or for out-of-range indices on strings.", "anchors": ["src/vm/vm_container.cpp: vm_load_vector_item"]}
{"id": "C20", "title": "Array equality and membership", "statement": "Array equality is reflexive, symmetric and agrees with element-wise equality and length; contains(v) holds iff some element equals v.", "quantifier": "all arrays of all lengths", "why_tests_cant": "Depends on element kinds at arbitrary positions.", "anchors": ["src/core/object/ArrayScriptObjectZs.cpp: ArrayScriptObjectZs_contains"]}
{"id": "C21", "title": "Array concatenation", "statement": "a+b is a fresh array with the elements of a followed by those of b (a and b unchanged); a+=b appends exactly the elements of b to a.", "quantifier": "all arrays", "why_tests_cant": "Lengths and aliasing (a+=a) vary without bound.", "anchors": ["src/core/object/ArrayScriptObject.cpp: concat", "src/vm/vm_call_metamethod.cpp"]}
{"id": "C22", "title": "Object concatenation is right-biased merge", "statement": "o1+o2 has exactly the keys of either; the value of a key comes from o2 when o2 has it; o1's keys come first in order; operands are unchanged.", "quantifier": "all objects", "why_tests_cant": "All key sets and overlaps.", "anchors": ["src/core/object/ObjectScriptObject.cpp: concat/append"]}
{"id": "C23", "title": "Array mutators", "statement": "push/pop/insertAt/eraseAt/clear/length on script arrays act as on lists, through any history of calls; a position outside the array (eraseAt beyond the end, insertAt(-1)) only raises an error.", "quantifier": "all arrays, all positions", "why_tests_cant": "All positions.", "anchors": ["src/core/object/ArrayScriptObject.cpp", "src/core/object/ArrayScriptObjectZs.cpp", "src/base/Vector.tcc"]}
{"id": "C24", "title": "Operator precedence and associativity", "statement": "For every flat sequence of operands and binary operators the compiled evaluation groups operators by the documented precedence levels and left-associatively inside a level, and every operand is used once, in order.", "quantifier": "all expressions of all lengths over all binary operators", "why_tests_cant": "Infinitely many operator sequences.", "anchors": ["src/compiler/compiler_expression_byte_code.cpp: compiler_expression_tokens_to_byte_code", "src/compiler/compiler_data.cpp: get_preference_operator_group", "src/compiler/compiler_operator.h"]}
{"id": "C25", "title": "Constant folding is transparent", "statement": "For every binary operator and every pair of literals, if compilation accepts the expression its value equals the value the run-time operation gives for the same operands held in variables.", "quantifier": "all operators and all literal values", "why_tests_cant": "All value pairs; specific kind combinations differ.", "anchors": ["src/compiler/compiler_expression_optimize.cpp: compiler_expression_perform_KK_operation", "src/vm/vm_operation.h"]}
{"id": "C26", "title": "Expression compilation is correct", "statement": "Running the code generated for an expression (binary operators, &&, ||, ternary, parentheses) leaves exactly one more value on the operand stack: the value given by the language's evaluation rules (short-circuit, left to right), or stops with the error those rules give.", "quantifier": "all expressions of all shapes and depths, all variable stores", "why_tests_cant": "The peephole optimiser and jump linking interact only for particular nestings.", "anchors": ["src/compiler/compiler_expression_byte_code.cpp", "src/compiler/compiler_expression_optimize.cpp", "src/vm/vm_script_function.cpp", "src/vm/vm_pop_stk.h"]}
{"id": "C27", "title": "Statement compilation is correct", "statement": "Running the code generated for if/else-if/else, while, do-while, for, switch, break, continue and blocks performs exactly the statement sequence prescribed by structured control flow.", "quantifier": "all programs over these statements, all nestings, all loop counts", "why_tests_cant": "Jump offsets are computed from lengths of nested code and patched by later insertions.", "anchors": ["src/compiler/compiler_keyword_conditional.cpp", "src/compiler/compiler_keyword_loop.cpp", "src/compiler/compiler.cpp: compiler_check_scope"]}
{"id": "C28", "title": "Block scopes are balanced at run time", "statement": "Whatever path control takes through a function body (including break and continue), each block scope entered is left exactly once, and the number of simultaneously open scopes never exceeds the fixed scope table.", "quantifier": "all statement nestings, all executions", "why_tests_cant": "Leaks accumulate only over particular paths and iteration counts.", "anchors": ["src/compiler/compiler_keyword_loop.cpp: link_loop_break_continues", "src/compiler/compiler.cpp: compiler_check_scope", "src/vm/vm_scope.h: ZS_VM_PUSH_SCOPE"]}
{"id": "C29", "title": "for runs its initialiser once", "statement": "for(init;cond;post) executes init exactly once, before the first test, for every combination of present/absent cond and post.", "quantifier": "all for statements and iteration counts", "why_tests_cant": "An empty condition changes the back-jump target.", "anchors": ["src/compiler/compiler_keyword_loop.cpp: compiler_keyword_for"]}
{"id": "C30", "title": "Reserved operand stack is sufficient", "statement": "The stack space a function reserves on entry is at least the largest operand-stack depth any execution of its code reaches.", "quantifier": "all compiled functions, all execution paths", "why_tests_cant": "The reservation is a linear scan over code that executes non-linearly.", "anchors": ["src/core/Instruction.cpp: instruction_num_required_stack", "src/compiler/compiler.cpp: compiler_pop_and_compile_function", "src/vm/vm_script_function.cpp"]}
{"id": "C31", "title": "Multiple assignment", "statement": "a1,...,an = e1,...,em evaluates every right side, then assigns value i to target i; missing values become undefined, surplus values are dropped.", "quantifier": "all n, m, all stores", "why_tests_cant": "All target/value counts, aliasing of targets and sources.", "anchors": ["src/compiler/compiler_expression.cpp: compiler_expression", "src/vm/vm_store.cpp"]}
{"id": "C32", "title": "Comments and blanks are skipped exactly", "statement": "Skipping blanks/comments from any position advances to the first character not inside blank space or a comment, counts each newline once and never moves past the end of the source.", "quantifier": "all source texts and positions", "why_tests_cant": "Unterminated comments, comments adjacent to ends, and nesting.", "anchors": ["src/compiler/compiler_data.cpp: ignore_blanks"]}
{"id": "C33", "title": "Reference counts never free a live object", "statement": "Under every sequence of create/share/unref/scope-cleanup operations an object is freed at most once, never while some holder still shares it, and an unshared object is freed by the next clean-up of its scope.", "quantifier": "all operation histories over all objects and scopes", "why_tests_cant": "Counts and list membership depend on complete histories.", "anchors": ["src/vm/vm_share_manager.cpp"]}
{"id": "C34", "title": "Leaving a scope releases its variables", "statement": "When a block scope is left, every variable of that scope becomes undefined and each shared object it held loses exactly one share.", "quantifier": "all stores and scopes", "why_tests_cant": "Aliasing between variables.", "anchors": ["src/vm/vm.tcc: vm_pop_scope", "src/vm/vm_share_manager.cpp"]}
{"id": "C35", "title": "Constants cannot be changed", "statement": "No assignment, compound assignment, increment or multiple assignment changes the value of a const variable after its definition; the attempt is an error.", "quantifier": "all assignment forms and all values", "why_tests_cant": "All operators and paths.", "anchors": ["src/vm/vm_store.cpp", "src/vm/vm_operation_assign.h", "src/compiler/compiler_keyword_var.cpp"]}
{"id": "C36", "title": "Argument binding", "statement": "In a call with k arguments of a function with n parameters, parameter i receives argument i for i<min(k,n), its default (or undefined) for i>=k, surplus arguments are ignored, a variable-argument parameter receives the remaining arguments in order, and a by-value parameter never aliases the caller's variable.", "quantifier": "all k, n and argument values", "why_tests_cant": "All arities.", "anchors": ["src/vm/vm_call.cpp"]}
{"id": "C37", "title": "Multiple return values", "statement": "A call used where m values are expected yields the first m returned values in order, padded with undefined.", "quantifier": "all numbers of returned and expected values", "why_tests_cant": "All counts.", "anchors": ["src/vm/vm_call.cpp"]}
{"id": "C38", "title": "Recursion is cut off", "statement": "Unbounded recursion ends in a script error: the call depth never exceeds the fixed maximum and no frame is written outside the frame table.", "quantifier": "all call histories", "why_tests_cant": "Depth reached by any history.", "anchors": ["src/vm/vm_script_function.cpp", "src/vm/vm.h: ZS_VM_FUNCTION_CALL_MAX"]}
{"id": "C39", "title": "Native overload resolution", "statement": "A call selects a registered native function with that name, arity and argument types; among several the last registered wins; if none matches an error is raised.", "quantifier": "all registries and argument lists", "why_tests_cant": "All registries.", "anchors": ["src/vm/vm_native_function.cpp: vm_find_native_function"]}
{"id": "C40", "title": "Castability agrees with conversion", "statement": "Whenever the engine says a value can be cast to a type, converting the value to that type succeeds, and vice versa.", "quantifier": "all value kinds and all target types", "why_tests_cant": "Two long independent case analyses.", "anchors": ["src/ScriptEngine.cpp: canStackElementCastTo/stackElementTo"]}
{"id": "C41", "title": "Iteration visits each element once", "statement": "foreach over an array/string/object visits elements 0..n-1 exactly once in order and stops; `x in c` holds iff x is an element (key) of c.", "quantifier": "all containers", "why_tests_cant": "All sizes.", "anchors": ["src/core/object/ArrayIteratorScriptObject.cpp", "src/core/object/StringIteratorScriptObject.cpp", "src/vm/vm_iterator.cpp"]}
{"id": "C42", "title": "Inheritance is a partial order", "statement": "instanceof / extends is reflexive, transitive, antisymmetric, decided in finitely many steps, and unaffected by registering further types.", "quantifier": "all histories of type registrations", "why_tests_cant": "All hierarchies.", "anchors": ["src/core/type/ScriptType.cpp: extendsFrom", "src/core/type/ScriptTypesFactory.cpp: registerType"]}
{"id": "C43", "title": "Most derived member function is called", "statement": "Looking up a member function on an object of a class finds the definition of the nearest class in its ancestor chain that defines the name.", "quantifier": "all hierarchies and names", "why_tests_cant": "All hierarchies.", "anchors": ["src/core/type/ScriptType.cpp: getSymbolMemberFunction", "src/core/type/ScriptTypesFactory.cpp"]}
{"id": "C44", "title": "Lexical lookup", "statement": "A name resolves to the declaration of the innermost enclosing scope that declares it; a scope never holds two variables with one name; declaring in an inner scope does not change what outer code sees.", "quantifier": "all scope trees and declaration histories", "why_tests_cant": "All nestings.", "anchors": ["src/core/scope/ScriptScope.cpp: getSymbol/registerSymbolVariable"]}
{"id": "C45", "title": "clear() returns to the saved state", "statement": "After saveState(), any registrations and then clear(), exactly the globals, functions and types registered before saveState remain.", "quantifier": "all registration histories", "why_tests_cant": "All histories.", "anchors": ["src/ScriptEngine.cpp: saveState/clear/clearGlobalVariables"]}
{"id": "C46", "title": "typeof is unambiguous", "statement": "Every value reports exactly one kind, assignments preserve the kind, and reading through references reports the kind of the referenced value.", "quantifier": "all values", "why_tests_cant": "All flag combinations.", "anchors": ["src/core/StackElement.cpp: typeOf", "src/ScriptEngine.cpp: unwrapStackElement"]}
{"id": "C47", "title": "JSON round trip", "statement": "Deserialising the serialised text of a value built from null, booleans, numbers, strings, arrays and objects gives back an equal value.", "quantifier": "all finite values of any depth", "why_tests_cant": "All nestings and characters.", "anchors": ["src/module/JsonSerializeModule.cpp", "src/module/JsonDeserializeModule.cpp"]}
{"id": "C48", "title": "Serialised text is JSON", "statement": "The text produced for such a value is a sentence of the JSON grammar.", "quantifier": "all finite values of any depth", "why_tests_cant": "All nestings and characters.", "anchors": ["src/module/JsonSerializeModule.cpp"]}
{"id": "C49", "title": "Cyclic structures", "statement": "Serialising terminates for every object graph.", "quantifier": "all finite object graphs, cyclic ones included", "why_tests_cant": "Cycles of every length.", "anchors": ["src/module/JsonSerializeModule.cpp: serialize_object/serialize_stk"]}
{"id": "C50", "title": "Making an object shared", "statement": "makeObjectShared on an object that is not yet shared makes it shared with one holder; on a shared object it reports an error and changes nothing.", "quantifier": "all share-manager states and objects", "why_tests_cant": "All states.", "anchors": ["src/ScriptEngine.cpp: makeObjectShared", "src/vm/vm_share_manager.cpp"]}
{"id": "C51", "title": "String editing", "statement": "append, +, insertAt and eraseAt act on the character sequence of the string; an index outside the string is reported as an error; == compares the characters.", "quantifier": "all strings, all integer indices", "why_tests_cant": "All lengths, contents and indices, including buffer growth boundaries.", "anchors": ["src/base/String.cpp: append/insert/erase/operator+/operator==/operator[]"]}
{"id": "C52", "title": "DateTime comparison and difference", "statement": "The comparison operators on dates are the chronological order, and the difference of two dates is the time elapsed between them.", "quantifier": "all pairs of valid dates", "why_tests_cant": "All pairs of dates across month, year and century borders.", "anchors": ["src/base/DateTime.cpp: operator<,>,<=,>=,==,!=,-"]}
{"id": "C53", "title": "String literal escapes", "statement": "A string value written as a literal with the documented escapes (newline, tab, backslash, quotes) evaluates to exactly that value, and no character is lost.", "quantifier": "all strings", "why_tests_cant": "All strings.", "anchors": ["src/base/String.cpp: unescape", "src/core/object/StringScriptObject.cpp: set"]}
{"id": "C54", "title": "Increment and decrement", "statement": "x++ yields the old value of x and leaves x+1, ++x yields and leaves x+1, likewise for --; the kind of x does not change, and a non-numeric x is an error (or a metamethod call).", "quantifier": "all values of x", "why_tests_cant": "All integers and floats, including the extremes.", "anchors": ["src/vm/vm_operation_assign.h", "src/vm/vm_operation.h: VM_PRE_OPERATION, VM_POST_OPERATION"]}
{"id": "C55", "title": "Operators are read by longest match", "statement": "At every position of a source text a symbol operator is recognised exactly if it is the longest operator spelling that the text begins with there; a word operator (in, instanceof) exactly if the word stands there followed by blank space.", "quantifier": "all source texts and positions", "why_tests_cant": "All texts around an operator.", "anchors": ["src/compiler/compiler_data.cpp: is_operator, is_operator_*", "src/compiler/compiler_operator.h"]}
{"id": "C56", "title": "Keywords and names are whole words", "statement": "A keyword is recognised exactly where it stands as a whole word; a name is the longest run of letters, digits and underscores that begins with a letter or underscore.", "quantifier": "all source texts and positions", "why_tests_cant": "All characters that can follow a word.", "anchors": ["src/compiler/compiler_data.cpp: compiler_is_keyword, get_name_identifier_token"]}
{"id": "C57", "title": "Numerals", "statement": "A number literal is accepted exactly if it has one of the documented forms (decimal, binary with b, hexadecimal with 0x, fraction, fraction with exponent) and is followed by a delimiter; it is taken as a whole, and reading it never leaves the source text.", "quantifier": "all source texts and positions", "why_tests_cant": "All digit strings and followers.", "anchors": ["src/compiler/compiler_data.cpp: parse_literal_number"]}
{"id": "C58", "title": "The operand stack is never overrun", "statement": "Running any program, with any nesting of calls and any stack size chosen by the host, never writes outside the memory of the operand stack: a call for which there is no room is refused with a script error.", "quantifier": "all histories of calls, returns and errors; all stack sizes; all functions", "why_tests_cant": "The overrun depends on the sum of the frames of an arbitrary call chain.", "anchors": ["src/vm/vm_script_function.cpp: vm_execute_script_function", "src/vm/vm_call.cpp: vm_call", "src/vm/vm.cpp: vm_execute"]}
{"id": "C59", "title": "A failed type registration changes nothing", "statement": "If registering a class, an inheritance link or a member function raises an error, the set of registered types and what every type's member lookups give are the same as before the attempt, and the name can be registered again.", "quantifier": "all histories of registrations and every failing registration", "why_tests_cant": "All histories and all failure causes.", "anchors": ["src/core/type/ScriptTypesFactory.cpp: registerType", "src/core/type/ScriptType.cpp: registerMemberFunction"]}
{"id": "C60", "title": "A loop over an array or string that changes is positional", "statement": "for(v in a) and for(k,v in a) over an array or string stay well defined whatever the body does to the container: round i sees the element that is at position i at that moment, positions are visited in order without repetition, the loop ends as soon as the position is past the current end, and it raises an error if the container was destroyed.", "quantifier": "all containers, all loop bodies (any effect on the container and on everything else), one or two loop variables", "why_tests_cant": "The body may shrink, grow or replace the container at any round.", "anchors": ["src/core/object/ArrayIteratorScriptObject.cpp", "src/core/object/StringIteratorScriptObject.cpp", "src/compiler/compiler_keyword_loop.cpp: compiler_keyword_for", "src/vm/vm_call.cpp: vm_call"]}
{"id": "C61", "title": "A loop over an object that changes is well defined", "statement": "for(k,v in o) over an object stays well defined whatever the body does to the object: fields added during the loop are visited, removed ones are not, values are the current ones, and the field order is insertion order.", "quantifier": "all objects (all histories of field operations), all loop bodies", "why_tests_cant": "Any history of insertions and removals at any round.", "anchors": ["src/core/object/ObjectIteratorScriptObject.cpp", "src/base/MapStringIterator.cpp", "src/base/MapString.cpp"]}
{"id": "C62", "title": "Globals keep their storage and values", "statement": "A global variable declared by one script is the same storage in every later script: whatever variables and blocks later scripts declare, each global reads the value last written to it, its position never changes, and the code of a script refers to the position its variable ends up at after the compiler has reordered the variables.", "quantifier": "all sequences of scripts with any nesting of blocks and any declarations, all writes between them", "why_tests_cant": "Any number of scripts, any nesting, any order of declarations.", "anchors": ["src/compiler/compiler.cpp: compiler_pop_and_compile_function, compiler_create_lookup_sorted_table_local_variables", "src/core/function/ScriptFunction.cpp: registerLocalVariable, removeUnusuedScopes", "src/ScriptEngine.cpp: eval"]}
{"id": "C63", "title": "Registered constants and constants of classes keep their values", "statement": "A constant registered by the host, or declared by a script for a class, reads its value in every script evaluated later, whatever else is registered and evaluated in between.", "quantifier": "all histories of registrations, scripts, saveState and clear", "why_tests_cant": "All interleavings of registrations with scripts.", "anchors": ["src/ScriptEngine.cpp: registerConstantInteger, registerConstantBoolean, registerConstantFloat, registerConstantString", "src/compiler/compiler_keyword_var.cpp", "src/core/function/ScriptFunction.cpp: registerLocalVariable"]}
{"id": "C64", "title": "Deserialising any text is defined", "statement": "json::deserialize on any text whatsoever ends and gives a value or an error; it never reads or writes outside the text and its buffers.", "quantifier": "all texts", "why_tests_cant": "Every malformed text of every length.", "anchors": ["src/module/JsonDeserializeModule.cpp"]}
{"id": "C65", "title": "Every JSON text is accepted with its value", "statement": "json::deserialize accepts every JSON text (blanks, escapes, nesting) and gives the value the text stands for.", "quantifier": "all JSON texts of any depth", "why_tests_cant": "All nestings, blanks and characters.", "anchors": ["src/module/JsonDeserializeModule.cpp", "src/module/JsonModule.cpp"]}
{"id": "C66", "title": "Text of a float can be read back", "statement": "The text of a finite float, parsed as a float, gives the same float; the text is the decimal value correct to the printed decimals.", "quantifier": "all finite floats", "why_tests_cant": "2^64 patterns.", "anchors": ["src/base/Float.cpp: toString, parse", "src/core/type/ScriptTypesFactory.cpp: parseFloat"]}
{"id": "C67", "title": "A float literal stands for its value", "statement": "A decimal floating point literal within the range of zs_float stands for the number nearest to what is written.", "quantifier": "all decimal literals with or without decimals and exponent", "why_tests_cant": "All digit strings of all lengths.", "anchors": ["src/base/Float.cpp: parse", "src/compiler/compiler_symbol.cpp"]}
{"id": "C68", "title": "Accesses and calls in a row mean what they say", "statement": "An expression made of variables, member and element accesses, method calls, function calls and super calls is evaluated from left to right, each access applied to the value of what stands before it and each call given the values its arguments had when they were evaluated; the operands of the operators around it are unchanged.", "quantifier": "all expressions of any depth and length of access chains and argument lists, all objects and functions, all pending operands", "why_tests_cant": "Chains and nestings are unbounded, and a wrong stack count shows only when an operand is pending below.", "anchors": ["src/compiler/compiler_expression_token_symbol.cpp: chain of accessors", "src/vm/vm_call.cpp: STACK_CALL, MEMBER_CALL, THIS_CALL, SUPER_CALL", "src/vm/vm_container.cpp: LOAD_OBJECT_ITEM, LOAD_ARRAY_ITEM"]}
{"id": "C69", "title": "Operators on objects run the function that defines them", "statement": "An operator applied to objects of script classes calls the function that defines it in the class of the operand (or in the nearest class it extends), with the operands in the order written, and has the value that function returns; the operands' order, the rest of the stack and earlier computations do not influence it. Assignment operators, ++ and -- and = (_set) follow the same rule, and a class may redefine an operator it inherits.", "quantifier": "all class hierarchies declared in any orderly way, all operators, operands, function bodies and stack contents", "why_tests_cant": "Whether the function found is the nearest one and whether its arguments and result are the right stack cells depends on the whole hierarchy, the number of locals of the function and what earlier code left on the stack.", "anchors": ["src/vm/vm_call_metamethod.cpp: vm_call_metamethod, vm_call_metamethod_set, vm_call_metamethod_operation_pre_post", "src/vm/vm_store.cpp: vm_store", "src/core/type/ScriptType.cpp: registerMemberFunction, getSymbolMemberFunction", "src/core/type/ScriptTypesFactory.cpp: registerType", "src/core/MetamethodHelper.cpp"]}
{"id": "C70", "title": "Member properties read and write through their functions", "statement": "Reading a member property has the value its _get function returns; assigning calls _set with the value; a compound assignment calls its function and then has the value of _get; ++ and -- have the value their function returns, or undefined when it returns none. Nothing else on the stack changes.", "quantifier": "all objects, properties, bodies of the property functions (with any number of local variables), values and stack contents", "why_tests_cant": "The value is taken from a stack position that depends on the local variables of the getter, so it is right or wrong for whole families of getters.", "anchors": ["src/vm/vm_container.cpp: vm_load_field, vm_load_this_element", "src/vm/vm_call.cpp: vm_inner_call", "src/vm/vm_call_metamethod.cpp: vm_call_metamethod_set", "src/vm/vm_store.cpp: vm_store", "src/compiler/compiler_keyword_class.cpp"]}
{"id": "C71", "title": "Names are lexically scoped", "statement": "In a script that compiles, a name used in a function stands for the declaration in the innermost enclosing block of that function that declares it, and otherwise for the global of that name; no block holds two symbols of one name; declarations inside a block or a function body change nothing for the code after it, except for the names of classes declared there and of the function itself; and no variable can be declared with a name that already stands for something in the same function.", "quantifier": "all scripts up to any point the compiler gets through, any nesting of blocks and functions, all names", "why_tests_cant": "There are unboundedly many nestings and orders of declarations.", "anchors": ["src/core/scope/ScriptScope.cpp: getSymbol/registerSymbolVariable"]}
{"id": "C72", "title": "Reading JSON always comes to an end", "statement": "Deserialising ends for every text, well-formed or not: it never loops for ever.", "quantifier": "all byte sequences", "why_tests_cant": "The set of malformed texts is unbounded, and a missed advance in any of the reader's loops only shows on particular ones.", "anchors": ["src/module/JsonDeserializeModule.cpp"]}
{"id": "C73", "title": "Time spans are totally ordered", "statement": "The comparison operators on time spans agree with one strict total order: < is irreflexive and transitive, exactly one of <, ==, > holds, and <=, >=, != follow from them.", "quantifier": "all triples of time spans with any stored fields", "why_tests_cant": "Laws over all triples of values.", "anchors": ["src/base/TimeSpan.cpp"]}
{"id": "C74", "title": "Dates compare chronologically", "statement": "For dates made by the constructor, each of the six comparison operators answers as the chronological order of year, month, day, hour, minute and second does.", "quantifier": "all pairs of dates with years of 32 bits", "why_tests_cant": "The comparison goes through a conversion to seconds over leap years and month lengths.", "anchors": ["src/base/DateTime.cpp: operator<,>,<=,>=,==,!=,-"]}
{"id": "C75", "title": "Recursion is cut off and the engine survives it", "statement": "Whatever functions call each other in whatever order, at most 100 script functions are ever active; a script that goes deeper ends with an error and no function active; and after any run that has ended, normally or cut off, the engine accepts the next call of a function that fits its stack.", "quantifier": "all histories of calls, returns and errors, all functions", "why_tests_cant": "Histories are unbounded.", "anchors": ["src/vm/vm_script_function.cpp", "src/vm/vm.h: ZS_VM_FUNCTION_CALL_MAX"]}
{"id": "C76", "title": "A loop over an unchanged container visits each element once, in order", "statement": "for(v in c) and for(v,k in c) over an array, string or object that the body does not change, with a body that does not fail, runs exactly one round for each element or field, in order (insertion order for fields), giving the variables the element and its index or name, and then ends.", "quantifier": "all arrays, strings and objects (fields below the size limit of the map), all bodies and states", "why_tests_cant": "Loops over containers of any size with arbitrary bodies.", "anchors": ["src/core/object/ArrayIteratorScriptObject.cpp", "src/core/object/StringIteratorScriptObject.cpp", "src/vm/vm_iterator.cpp"]}
{"id": "C77", "title": "Identifiers and symbol operators are read by longest match", "statement": "At every position of every script, an identifier is read as the longest run of letters, digits and underscores beginning with a letter or underscore, and a symbol operator as the longest operator spelling that stands there; recognising operators never reads outside the text.", "quantifier": "all texts and positions", "why_tests_cant": "Adjacent spellings form unboundedly many texts.", "anchors": ["src/compiler/compiler_data.cpp: is_operator, is_operator_*", "src/compiler/compiler_operator.h", "src/compiler/compiler_data.cpp: compiler_is_keyword, get_name_identifier_token"]}
{"id": "C78", "title": "Skipping blanks and comments is safe", "statement": "Skipping blanks and comments ends for every text, reads nothing beyond its terminating NUL, stops inside the text (or reports an unclosed comment), and counts exactly the line feeds it passed, so line numbers in messages stay right.", "quantifier": "all texts without NUL", "why_tests_cant": "All texts, unclosed comments and stray carriage returns included.", "anchors": ["src/compiler/compiler_data.cpp: ignore_blanks"]}
{"id": "C79", "title": "An array access that succeeds is inside the array", "statement": "Whatever the index operand is, an access to an array element either fails with an error or stays inside the array.", "quantifier": "all arrays and index values of every kind", "why_tests_cant": "All lengths and all 64-bit indices, floats included.", "anchors": ["src/vm/vm_container.cpp: vm_load_vector_item"]}
{"id": "C80", "title": "Division and remainder are always defined", "statement": "x / y and x % y on numbers are script errors when y is zero and otherwise the floating point quotient and remainder, also for two integers; on no operands whatsoever do they reach undefined behaviour.", "quantifier": "all pairs of stack elements", "why_tests_cant": "All pairs of 64-bit integers and floats, the extreme ones included.", "anchors": ["src/vm/vm_operation.h: VM_OPERATION_ARITHMETIC/DIV/MOD/ADD"]}
{"id": "C81", "title": "Prefix and suffix tests, equality and concatenation of strings are exact", "statement": "startsWith and endsWith answer whether the text begins or ends with the argument, == whether the characters are the same, and + gives the characters of the first followed by those of the second, for every pair of strings, empty and cleared ones included.", "quantifier": "all pairs of strings", "why_tests_cant": "All pairs of lengths and contents, including the unallocated representation of cleared strings.", "anchors": ["src/base/String.cpp: find/startsWith/endsWith/contains", "src/base/String.cpp: append/insert/erase/operator+/operator==/operator[]"]}
{"id": "C82", "title": "The native split inverts join", "statement": "Splitting a string at a character or at a non-empty string ends and gives pieces that joined with the delimiter give the string back and none of which contains the delimiter.", "quantifier": "all strings and non-empty delimiters", "why_tests_cant": "All texts and delimiters, overlapping occurrences included.", "anchors": ["src/base/String.cpp: String::split(char), String::split(const String &)"]}
{"id": "C83", "title": "A fresh native call runs the last registered function that takes the arguments", "statement": "When a native function is looked up for a call, the one found is the last registered of that name whose parameters take the arguments; an error is raised exactly when there is none; no null pointer is read.", "quantifier": "all registries, names and arguments without null objects", "why_tests_cant": "All registries and argument lists.", "anchors": ["src/vm/vm_native_function.cpp: vm_find_native_function"]}
{"id": "C84", "title": "Integer literals have the value of their digits", "statement": "A decimal, hexadecimal (0x..) or binary (..b) literal stands for the value of its digits, or for the largest integer when that does not fit.", "quantifier": "all literals of the three grammars, of any length", "why_tests_cant": "Literals of unbounded length.", "anchors": ["src/base/Integer.cpp: Integer::parse, Integer::isInteger"]}
{"id": "C85", "title": "Printed floats are correct to six decimals", "statement": "The text of a finite float is an optional minus, digits without superfluous leading zeros, a point and six digits, and its value differs from the number by at most half a unit of the sixth decimal.", "quantifier": "all finite binary64 numbers", "why_tests_cant": "2^64 values; exactness of the digits is an arithmetic fact.", "anchors": ["src/base/Float.cpp: toString, parse", "src/core/type/ScriptTypesFactory.cpp: parseFloat"]}
{"id": "C86", "title": "Comparisons of comparable values obey the laws of order", "statement": "For two integers, two numbers of which none is NaN, two booleans or two strings, in variables or constants, the six comparison operators answer according to one order: == is symmetric and != its complement, < and >= and > and <= are complements, a<b is b>a, and exactly one of <, ==, > holds.", "quantifier": "all pairs of such values", "why_tests_cant": "All pairs of 64-bit integers, floats and strings.", "anchors": ["src/vm/vm_operation.h: VM_OPERATION_COMPARE", "src/vm/vm_operation.h undefined/null handling"]}
{"id": "C87", "title": "A float literal is finite, and nothing may trail it", "statement": "A decimal literal that is accepted stands for a finite number with the sign written, and a numeral followed by characters that do not belong to it is refused.", "quantifier": "all decimal numerals of any length and all followers", "why_tests_cant": "Literals of unbounded length and exponent.", "anchors": ["src/base/Float.cpp: parse", "src/compiler/compiler_symbol.cpp"]}
{"id": "C88", "title": "Unary operators and in on objects run the nearest definition", "statement": "!x, -x, ~x and v in x on an object x of a script class, whose hierarchy declares that operator with the parameters it takes, have the value v exactly when the function that defines the operator in the class of x, or in the nearest class it extends, returns v for x (and the value before in); nothing else on the stack changes.", "quantifier": "all class hierarchies declared in any orderly way, all objects, bodies and stack contents", "why_tests_cant": "Hierarchies and bodies are arbitrary.", "anchors": ["src/vm/vm_call_metamethod.cpp: vm_call_metamethod, vm_call_metamethod_set, vm_call_metamethod_operation_pre_post", "src/vm/vm_store.cpp: vm_store", "src/core/type/ScriptType.cpp: registerMemberFunction, getSymbolMemberFunction", "src/core/type/ScriptTypesFactory.cpp: registerType", "src/core/MetamethodHelper.cpp"]}
{"id": "C89", "title": "Assigning to a member property calls its setter", "statement": "o.p = v calls the _set function of the property (declared with one parameter) on o with v, leaves the stack as it was, fails when that function fails, and is an error when there is none.", "quantifier": "all objects, properties, bodies, values and stack contents", "why_tests_cant": "Bodies and stack contents are arbitrary.", "anchors": ["src/vm/vm_container.cpp: vm_load_field, vm_load_this_element", "src/vm/vm_call.cpp: vm_inner_call", "src/vm/vm_call_metamethod.cpp: vm_call_metamethod_set", "src/vm/vm_store.cpp: vm_store", "src/compiler/compiler_keyword_class.cpp"]}
{"id": "C90", "title": "Compiling always comes to an end", "statement": "Compiling a script ends for every text, well-formed or not, and whatever the engine has compiled before: it never loops for ever.", "quantifier": "all texts without NUL, all states of the engine", "why_tests_cant": "A missed advance in any of the parser's loops only shows on particular malformed texts, of which there are unboundedly many.", "anchors": ["src/compiler/compiler.cpp: compiler_compile_and_link, compiler_compile_recursive", "src/compiler/compiler_expression.cpp: compiler_expression, compiler_sub_expression", "src/compiler/compiler_expression_token_symbol.cpp: compiler_expression_token_symbol", "src/compiler/compiler_symbol.cpp: compiler_symbol", "src/compiler/compiler_object.cpp: compiler_object_object, compiler_object_vector, compiler_object_new", "src/compiler/compiler_keyword_function.cpp: compiler_keyword_function", "src/compiler/compiler_keyword_class.cpp: compiler_keyword_class", "src/compiler/compiler_keyword_loop.cpp: compiler_keyword_for, compiler_keyword_while, compiler_keyword_do_while", "src/compiler/compiler_keyword_conditional.cpp", "src/compiler/compiler_keyword_var.cpp: compiler_keyword_var"]}
{"id": "C91", "title": "Compiling never reads behind the end of the script", "statement": "Whatever text is compiled, the compiler reads nothing behind its end and does nothing else that is undefined in C++; a malformed text is refused with an error.", "quantifier": "all texts without NUL, all states of the engine", "why_tests_cant": "Every construct can be cut off at every place.", "anchors": ["src/compiler/compiler.cpp: compiler_compile_and_link, compiler_compile_recursive", "src/compiler/compiler_expression.cpp: compiler_expression, compiler_sub_expression", "src/compiler/compiler_expression_token_symbol.cpp: compiler_expression_token_symbol", "src/compiler/compiler_symbol.cpp: compiler_symbol", "src/compiler/compiler_object.cpp: compiler_object_object, compiler_object_vector, compiler_object_new", "src/compiler/compiler_keyword_function.cpp: compiler_keyword_function", "src/compiler/compiler_keyword_class.cpp: compiler_keyword_class", "src/compiler/compiler_keyword_loop.cpp: compiler_keyword_for, compiler_keyword_while, compiler_keyword_do_while", "src/compiler/compiler_keyword_conditional.cpp", "src/compiler/compiler_keyword_var.cpp: compiler_keyword_var"]}
{"id": "C92", "title": "A script that is accepted has been read to its end", "statement": "When compiling a text ends without an error, every statement of the text up to its end has been compiled; no part of it is silently ignored.", "quantifier": "all texts without NUL, all states of the engine", "why_tests_cant": "Every way out of the parser, on every text, must have reported an error or reached the end.", "anchors": ["src/compiler/compiler.cpp: compiler_compile_and_link, compiler_compile_recursive", "src/compiler/compiler_expression.cpp: compiler_expression, compiler_sub_expression", "src/compiler/compiler_expression_token_symbol.cpp: compiler_expression_token_symbol", "src/compiler/compiler_symbol.cpp: compiler_symbol", "src/compiler/compiler_object.cpp: compiler_object_object, compiler_object_vector, compiler_object_new", "src/compiler/compiler_keyword_function.cpp: compiler_keyword_function", "src/compiler/compiler_keyword_class.cpp: compiler_keyword_class", "src/compiler/compiler_keyword_loop.cpp: compiler_keyword_for, compiler_keyword_while, compiler_keyword_do_while", "src/compiler/compiler_keyword_conditional.cpp", "src/compiler/compiler_keyword_var.cpp: compiler_keyword_var"]}
{"id": "C93", "title": "new makes an initialised object and calls its constructor once", "statement": "new C(args) makes a new object of class C, gives every field written in C and in the classes it extends its value, base classes first and each class in the order of the text, then evaluates the arguments and calls the constructor of C, or of the nearest class it extends, exactly once on that object with them. The value of the expression is the object.", "quantifier": "all programs of script classes, all places of the new in the text, all arguments, all states of the machine", "why_tests_cant": "The result depends on where in the text the new stands relative to the declarations it uses, and on the whole chain of classes.", "anchors": ["src/compiler/compiler_object.cpp: compiler_object_new", "src/core/object/ClassScriptObject.cpp: ClassScriptObject, callConstructorMemberVariables", "src/compiler/compiler_keyword_var.cpp: compiler_keyword_var", "src/compiler/compiler_keyword_function.cpp: compiler_generate_byte_code_field_initializer", "src/vm/vm_new_object.cpp: vm_new_object_by_value", "src/vm/vm_call.cpp: vm_call", "src/vm/vm_script_function.cpp: NEW_OBJECT_BY_TYPE, LOAD_CONSTRUCTOR_FUNCT"]}
{"id": "C94", "title": "Containers in containers never touch freed memory", "statement": "However a script puts objects into each other, with assignments to variables and elements, literals, extend, +, push and erase, and in cycles, no statement uses memory that was freed.", "quantifier": "all histories of statements on objects, all shapes of the heap", "why_tests_cant": "Whether memory is freed too early depends on the whole history and on all references between objects.", "anchors": ["src/vm/vm_store.cpp: vm_store", "src/vm/vm_container.cpp: vm_load_field, vm_load_vector_item, vm_push_container_item", "src/core/object/ContainerSlot.cpp: newContainerSlot, setSrcContainerRef, deleteContainerSlot", "src/core/object/ContainerScriptObject.cpp: removeContainerSlot", "src/core/object/ObjectScriptObject.cpp: setStackElementByKeyName, append, concat", "src/vm/vm_share_manager.cpp: vm_share_object, vm_unref_shared_object, vm_remove_empty_shared_pointers"]}
{"id": "C95", "title": "Elements read as what was assigned to them, through all references", "statement": "After any history of statements, each variable followed by accesses reads the value that the last assignment to it left, with objects shared by reference; reading past undefined is a script error, and nothing else is.", "quantifier": "all histories of statements on objects, all paths of accesses", "why_tests_cant": "All aliasing between variables and elements and all orders of assignment.", "anchors": ["src/vm/vm_store.cpp: vm_store", "src/vm/vm_container.cpp: vm_load_field, vm_load_vector_item, vm_push_container_item", "src/core/object/ContainerSlot.cpp: newContainerSlot, setSrcContainerRef, deleteContainerSlot", "src/core/object/ContainerScriptObject.cpp: removeContainerSlot", "src/core/object/ObjectScriptObject.cpp: setStackElementByKeyName, append, concat", "src/vm/vm_share_manager.cpp: vm_share_object, vm_unref_shared_object, vm_remove_empty_shared_pointers"]}
{"id": "C96", "title": "clear keeps the saved state and frees the rest", "statement": "clear() frees every object that the variables of the saved state do not lead to, and leaves those variables and all they lead to as they were.", "quantifier": "all histories, all saved states", "why_tests_cant": "All shapes of references between saved and other objects, cycles included.", "anchors": ["src/ScriptEngine.cpp: clearGlobalVariables", "src/vm/vm.cpp: vm_deref_cyclic_references"]}
{"id": "C97", "title": "Objects that no variable leads to are freed", "statement": "After the clean-up between statements, the objects that exist are exactly those that variables lead to through elements, unless objects contain themselves.", "quantifier": "all histories of statements on objects in objects, all shapes of references without cycles", "why_tests_cant": "Each statement moves shares between counters, slots and the waiting list; one share that is not given back shows only when the last other holder goes, any number of statements later.", "anchors": ["src/vm/vm_share_manager.cpp: vm_unref_shared_object, vm_remove_empty_shared_pointers", "src/core/object/ScriptObject.cpp: unrefStackElementContainer", "src/core/object/ContainerSlot.cpp: deleteContainerSlot"]}
{"id": "C98", "title": "Objects that scripts return to the host live until it gives them back", "statement": "After any history of scripts run, script functions called and returned objects given back by the host, in which arguments are objects the host holds or global variables refer to, and each object given back is one it holds: the host gets the values the program returns (or an exception for a script error), no freed memory is used, exactly those objects exist that the host holds or a global variable refers to, and the engine's list of lifetime objects is that of what the host holds.", "quantifier": "all finite histories of runs, calls and unrefLifetimeObject; all bodies made of assignments, delete and errors over any number of variables; all argument and return lists", "why_tests_cant": "whether an object may be freed depends on everything that was returned, stored and given back before; a test fixes one history and use after free is often silent", "anchors": ["src/vm/vm.cpp: vm_execute, vm_insert_lifetime_object, vm_unref_lifetime_object, vm_do_stack_dump", "src/vm/vm.tcc: vm_pop_scope, vm_object_in_objects_to_return", "src/vm/vm_share_manager.cpp: vm_remove_empty_shared_pointers", "src/vm/vm_script_function.cpp: BYTE_CODE_RET, BYTE_CODE_PUSH_STK_GLOBAL_IRGO, vm_delete_object", "src/ScriptEngine.cpp: unrefLifetimeObject"]}
{"id": "C99", "title": "Imported files are taken in once, and a refused script changes nothing", "statement": "compileAndRun of a text, or compileFileAndRun of a file, runs the statements of the text, where an import stands for the text of the imported file the first time that file is imported by anything given to the engine, and for nothing later, also if files import each other. A file is the one that the name means where the import is written. A script that is refused (an unacceptable item, a variable declared twice, a file that does not exist) throws and has no other effect: what the engine is given later, run() included, behaves as if the refused script had not been there.", "quantifier": "all sets of files in all directories, with any imports among them, cyclic ones included; all histories of texts, files, run and of changes to files", "why_tests_cant": "the result depends on everything imported and refused before, on the graph of imports and on how names are written; tests fix one layout of files", "anchors": ["src/ScriptEngine.cpp: ScriptEngine::compileFile, ScriptEngine::isFilenameAlreadyParsed, ScriptEngine::compileAndRun, ScriptEngine::compileFileAndRun, ScriptEngine::run", "src/compiler/compiler.cpp: compiler_compile_and_link, compiler_compile_recursive, compiler_pop_and_compile_function", "src/compiler/compiler_keyword_var.cpp: compiler_keyword_var", "src/core/scope/ScriptScope.cpp: ScriptScope::registerSymbolVariable"]}
{"id": "C100", "title": "Compiling files that import each other ends", "statement": "Whatever the files import, from one another or from themselves, under whatever names and from whatever directories, and whatever was compiled or refused before: every compileAndRun, compileFileAndRun and run in any history returns or throws (given that the statements run do), and no file name is compiled twice.", "quantifier": "all sets of files, all import graphs, all histories of texts, files, runs and changes to files", "why_tests_cant": "the number of nested imports has no bound; a test fixes one graph of imports", "anchors": ["src/ScriptEngine.cpp: ScriptEngine::compileFile, ScriptEngine::isFilenameAlreadyParsed, ScriptEngine::compileAndRun, ScriptEngine::compileFileAndRun, ScriptEngine::run", "src/compiler/compiler.cpp: compiler_compile_and_link, compiler_compile_recursive, compiler_pop_and_compile_function"]}
{"id": "C101", "title": "System::eval gives its caller the values that the code returns and nothing else", "statement": "An expression that calls System::eval with code and parameters gets the values that the code returns, in their order: the first of them if it takes one, undefined where the code returns fewer or nothing. The operands of the expression around the call are as they were.", "quantifier": "all evaluated code of assignments, expression statements, calls, if blocks and returns; all numbers of parameters, local variables, returned values and values taken; all contents of the operand stack", "why_tests_cant": "the values pass through four copies and three reversals whose ranges depend on the numbers of parameters, locals, returned and wanted values and on how the code ends; tests try a few", "anchors": ["src/module/SystemModule.cpp: SystemModule_eval", "src/vm/vm_native_function.cpp: vm_execute_native_function", "src/vm/vm_call.cpp: vm_call", "src/vm/vm_script_function.cpp: vm_execute_script_function"]}
{"id": "C102", "title": "A format text is filled with its arguments", "statement": "String::format and the Console functions print the text with every {n} replaced by argument n, {n,m} by the argument with blanks in front up to m characters, {n:dm} by the integer with zeros in front up to m digits (the sign before them), {n,m:dk} by both; text outside, places without an argument and a { without } behind it stay as they are. Arguments appear unchanged.", "quantifier": "all format texts: any sequence of text and places, any numbers in them; all lists of arguments, any integers and any texts", "why_tests_cant": "the result depends on every combination of index, width, format, argument and surrounding text; tests try a few", "anchors": ["src/core/object/StringScriptObject.cpp: StringScriptObject::format", "src/base/Integer.cpp: Integer::parse, Integer::toString", "src/ScriptEngine.cpp: ScriptEngine::stackElementValueToString", "src/module/ConsoleModule.cpp: ConsoleModule_out, ConsoleModule_outln, ConsoleModule_error, ConsoleModule_errorln"]}
{"id": "C103", "title": "Formatting any text is defined", "statement": "String::format and the Console functions return or raise a script error for every text and all arguments.", "quantifier": "all texts of any length, all lists of arguments", "why_tests_cant": "a text that overruns a buffer need not be in any test", "anchors": ["src/core/object/StringScriptObject.cpp: StringScriptObject::format", "src/base/Integer.cpp: Integer::parse, Integer::toString"]}
{"id": "C104", "title": "Values of the host arrive at scripts and come back", "statement": "A value that the host gives to a script (toStackElement, an argument of a bound script function, the result of a native function) arrives there as the same number, truth value, text or object, and comes back unchanged when the host takes it with the same C++ type (stackElementTo, the result of a bound function, a parameter of a native function).", "quantifier": "all values of every C++ type the engine registers, all ways in and out that take the type, all contents of the host's memory and all script objects", "why_tests_cant": "types, ways in and ways out combine; pointers, nulls and texts have many values; dangling results need not fail in a test", "anchors": ["src/ScriptEngine.cpp: ScriptEngine::toStackElement, ScriptEngine::stackElementTo, ScriptEngine::canStackElementCastTo, ScriptEngine::stackElementAssign", "src/ScriptEngine.tcc: stackElementTo, toStackElement, checkAndConvertStackElement, bindScriptFunction", "src/vm/vm_native_function.cpp: vm_call_native_function", "src/core/type/ScriptTypesFactory.cpp: ScriptTypesFactory::instanceObjectByScriptTypeId", "src/core/object/StringScriptObject.cpp: StringScriptObject::set"]}
{"id": "C105", "title": "What a script was given stays what it was", "statement": "A value that a script was given by the host does not change or vanish when the host changes or frees its own memory afterwards.", "quantifier": "all values, all ways in, all later contents of the host's memory", "why_tests_cant": "depends on what the host does at any later time", "anchors": ["src/ScriptEngine.cpp: ScriptEngine::toStackElement, ScriptEngine::stackElementTo, ScriptEngine::canStackElementCastTo, ScriptEngine::stackElementAssign", "src/ScriptEngine.tcc: stackElementTo, toStackElement, checkAndConvertStackElement, bindScriptFunction", "src/vm/vm_native_function.cpp: vm_call_native_function", "src/core/type/ScriptTypesFactory.cpp: ScriptTypesFactory::instanceObjectByScriptTypeId", "src/core/object/StringScriptObject.cpp: StringScriptObject::set"]}
{"id": "C106", "title": "A script array in the hands of the host is a list", "statement": "After any history of push and set by the host, with any changes of the host's memory in between, the array's length is the number of pushes, get with the C++ type a value was put as returns what it was at the moment it was put, and any other index is an error; refused sets change nothing.", "quantifier": "all histories of any length, all values and indices, all contents of the host's memory", "why_tests_cant": "histories are unbounded; values put may share memory that changes later", "anchors": ["src/core/object/ArrayScriptObject.tcc: ArrayScriptObject::get, ArrayScriptObject::set, ArrayScriptObject::push", "src/core/object/ArrayScriptObject.cpp: ArrayScriptObject::setStackElementByIndex", "src/vm/vm_share_manager.cpp: vm_create_shared_object", "src/ScriptEngine.cpp: ScriptEngine::toStackElement, ScriptEngine::stackElementTo, ScriptEngine::canStackElementCastTo, ScriptEngine::stackElementAssign"]}
{"id": "C107", "title": "A string changes only by what is done to it", "statement": "Each variable, parameter, array element and field has a string of its own: after any sequence of assignments, +=, calls, array and object literals, operators and string methods it holds the text last put there, and a statement that names one of them leaves all others as they were.", "quantifier": "all sequences of statements of any length, all expressions, all texts, all numbers of variables and elements", "why_tests_cant": "which strings share an object depends on the whole history; a test shows one history", "anchors": ["src/vm/vm_store.cpp: vm_store", "src/ScriptEngine.cpp: ScriptEngine::stackElementAssign, ScriptEngine::registerStkConstantStringScriptObject", "src/vm/vm_call.cpp: vm_call", "src/vm/vm_call_metamethod.cpp: vm_call_metamethod, vm_call_metamethod_set", "src/core/object/StringScriptObject.cpp: StringScriptObject::set, StringScriptObject::newStringScriptObjectAddStk", "src/core/object/StringScriptObjectZs.cpp: StringScriptObjectZs_append"]}
{"id": "C108", "title": "A literal has the text it is written with, every time", "statement": "A string literal is evaluated to the same text each time it is reached, whatever the script did before.", "quantifier": "all scripts before it, all literals", "why_tests_cant": "a test reaches a literal once; a changed literal shows in a later pass of a loop or call", "anchors": ["src/vm/vm_store.cpp: vm_store", "src/ScriptEngine.cpp: ScriptEngine::stackElementAssign, ScriptEngine::registerStkConstantStringScriptObject", "src/vm/vm_call.cpp: vm_call", "src/vm/vm_call_metamethod.cpp: vm_call_metamethod, vm_call_metamethod_set", "src/core/object/StringScriptObject.cpp: StringScriptObject::set, StringScriptObject::newStringScriptObjectAddStk", "src/core/object/StringScriptObjectZs.cpp: StringScriptObjectZs_append", "src/vm/vm_script_function.cpp: vm_execute_script_function", "src/vm/vm_container.cpp: vm_load_field"]}
{"id": "C109", "title": "Sums and methods that give new strings change nothing", "statement": "Evaluating an expression of literals, variables, + and string methods that give a new string (toUpperCase, replace, substring and so on) leaves every variable, element and literal as it was, whatever the script did before.", "quantifier": "all scripts before it, all expressions, all variables and literals", "why_tests_cant": "aliasing depends on the history before; expressions are of any depth", "anchors": ["src/vm/vm_store.cpp: vm_store", "src/ScriptEngine.cpp: ScriptEngine::stackElementAssign, ScriptEngine::registerStkConstantStringScriptObject", "src/vm/vm_call.cpp: vm_call", "src/vm/vm_call_metamethod.cpp: vm_call_metamethod, vm_call_metamethod_set", "src/core/object/StringScriptObject.cpp: StringScriptObject::set, StringScriptObject::newStringScriptObjectAddStk", "src/core/object/StringScriptObjectZs.cpp: StringScriptObjectZs_append"]}
{"id": "C110", "title": "A stored method is called on its object, or is an error", "statement": "f = o.m can be called as long as o lives and then runs on o. Once o has ended, calling f is a script error, also if another object has been made at the same address; and ending objects and stored methods in any order is safe and ends.", "quantifier": "all histories of making objects, storing methods (also of stored methods), ending either in any order, and calling", "why_tests_cant": "depends on the order in which objects end and on addresses being used again", "anchors": ["src/core/object/RefScriptObject.cpp: RefScriptObject::RefScriptObject, RefScriptObject::setRefObject, RefScriptObject::dettachRefObject", "src/core/object/ScriptObject.cpp: ScriptObject::attachRefObjectNode, ScriptObject::deattachRefObjectNode, ScriptObject::onDettachRefObjectNode", "src/base/List.tcc: List::dettachAllNodes", "src/vm/vm_call.cpp: vm_call"]}
{"id": "C111", "title": "Stored methods can be printed and bound by the host at any time", "statement": "Printing a stored method gives a text, and a host function bound to one runs on its object, or is an error if that object has ended.", "quantifier": "all histories as in C110, with printing, binding and calls of bound functions", "why_tests_cant": "depends on the order in which objects end and on addresses being used again", "anchors": ["src/core/object/RefScriptObject.cpp: RefScriptObject::RefScriptObject, RefScriptObject::setRefObject, RefScriptObject::dettachRefObject", "src/core/object/ScriptObject.cpp: ScriptObject::attachRefObjectNode, ScriptObject::deattachRefObjectNode, ScriptObject::onDettachRefObjectNode", "src/base/List.tcc: List::dettachAllNodes", "src/vm/vm_call.cpp: vm_call", "src/ScriptEngine.cpp: ScriptEngine::stackElementValueToString", "src/ScriptEngine.tcc: ScriptEngine::bindScriptFunction"]}
{"id": "C112", "title": "The engine goes on after script errors", "statement": "After a script error - at any call depth, in a constructor, in a function called back by a native one, in System::eval, in a default value, by too deep a call or by lack of stack - the host gets an exception that reports it, the next run is executed and ends as it would without, and objects that global variables hold are not taken away.", "quantifier": "all histories of runs of scripts and calls of the host whose errors are reported by the virtual machine itself", "why_tests_cant": "depends on where in nested calls, blocks and callbacks each error happens, over whole histories of runs", "anchors": ["src/vm/vm.cpp: vm_execute, vm_do_stack_dump", "src/vm/vm_script_function.cpp: vm_execute_script_function", "src/vm/vm_call.cpp: vm_call", "src/module/SystemModule.cpp: SystemModule_eval"]}
{"id": "C113", "title": "A script error leaves nothing behind", "statement": "After any error, all objects that no global variable holds are released, the host gets an exception that reports it, and the next run is executed.", "quantifier": "all histories of runs of scripts and calls of the host", "why_tests_cant": "depends on where in nested calls, blocks and callbacks each error happens, over whole histories of runs", "anchors": ["src/vm/vm.cpp: vm_execute, vm_do_stack_dump", "src/vm/vm_script_function.cpp: vm_execute_script_function", "src/vm/vm_call.cpp: vm_call", "src/module/SystemModule.cpp: SystemModule_eval", "src/vm/vm_share_manager.cpp: vm_share_object, vm_unref_shared_object"]}
{"id": "C114", "title": "Adding seconds, minutes, hours and days moves a date by exactly that span", "statement": "After any number of addSeconds, addMinutes, addHours and addDays, with positive and negative numbers, a date is on the day of the calendar and at the time that they lead to, and week_day and year_day are those of that day.", "quantifier": "all valid dates, all sequences of spans that are numbers of scripts and keep the year within the range of int", "why_tests_cant": "depends on lengths of months, leap years and carries over all dates and spans", "anchors": ["src/base/DateTime.cpp: DateTime::DateTime, DateTime::addSeconds, DateTime::addMinutes, DateTime::addHours, DateTime::addDays, DateTime::addMonths, DateTime::addYears, DateTime::getWeekDay, DateTime::getYearDay, operator-", "src/module/DateTimeModule.cpp: DateTimeModule_addSeconds, DateTimeModule_addMinutes, DateTimeModule_addHours, DateTimeModule_addDays, DateTimeModule_get_week_day, DateTimeModule_get_year_day"]}
{"id": "C115", "title": "A date is always a day of the calendar, with its weekday", "statement": "Whatever has been added to a date, its fields name a day that exists, week_day and year_day are those of that day, and subtracting dates does not change them.", "quantifier": "all valid dates, all sequences of addSeconds to addYears and subtractions", "why_tests_cant": "depends on lengths of months, leap years and carries over all dates and numbers", "anchors": ["src/base/DateTime.cpp: DateTime::DateTime, DateTime::addSeconds, DateTime::addMinutes, DateTime::addHours, DateTime::addDays, DateTime::addMonths, DateTime::addYears, DateTime::getWeekDay, DateTime::getYearDay, operator-", "src/module/DateTimeModule.cpp: DateTimeModule_addSeconds, DateTimeModule_addMinutes, DateTimeModule_addHours, DateTimeModule_addDays, DateTimeModule_get_week_day, DateTimeModule_get_year_day"]}
{"id": "C116", "title": "The console follows each line that is typed", "statement": "In the interactive console each line is run once, in the order typed, `clear` and `save` being commands, until `exit`, `quit` or the end of the input, where the program ends.", "quantifier": "all inputs, all engines behind the console", "why_tests_cant": "depends on the lengths of lines, on which commands come before them and on where the input ends", "anchors": ["src/zs.cpp: main", "src/base/Console.cpp: Console::getline"]}
{"id": "C117", "title": "The program does what its arguments ask for", "statement": "zs compiles the script named by the first argument that is not an option, prints its code and runs it as the options before it say, in whatever order they are given; an unknown option or --version makes it do nothing else; without a script it starts the console.", "quantifier": "all lists of arguments, all files that do or do not exist, compile or run", "why_tests_cant": "must hold for all lists of options in all orders", "anchors": ["src/zs.cpp: main", "src/base/String.cpp: String::startsWith"]}
{"id": "C118", "title": "A date written as a format says is read back", "statement": "DateTime::parse with a format gives the date whose fields are in the text where the format has them, whatever the order of the fields and whatever stands between them; in particular a date is read back from its own toString().", "quantifier": "all dates of the calendar, all formats, all texts with the fields of the date where the format has them", "why_tests_cant": "depends on every order and number of fields and separators and on every date", "anchors": ["src/base/DateTime.cpp: DateTime::parse, DateTime::_parseIntValue, DateTime::toString"]}
{"id": "C119", "title": "A date is written as a format says", "statement": "DateTime::toString(format) writes each field of the format as that field of the date, and everything else as it is.", "quantifier": "all dates of the calendar, all formats of known fields and separators", "why_tests_cant": "depends on every order of fields and on every date", "anchors": ["src/base/DateTime.cpp: DateTime::toString"]}
{"id": "C120", "title": "Every call has its own variables", "statement": "In scripts whose functions call each other and themselves, in the midst of expressions and arguments and with fewer or more arguments than parameters, each call has variables of its own: a parameter starts as its argument or its default, every other variable as undefined, and nothing that a call does changes a variable or a pending operand of another. The host gets the values that follow from this, whatever ran before.", "quantifier": "all programs of functions and scripts over local and global variables, sums, comparisons, conditions, loops, calls and returns; all contents of unused memory; all sequences of evaluations", "why_tests_cant": "depends on every nesting of calls and on everything left in memory by earlier ones", "anchors": ["src/vm/vm.cpp: vm_execute", "src/vm/vm_call.cpp: vm_call", "src/vm/vm_script_function.cpp: vm_execute_script_function"]}
{"id": "C121", "title": "A script function that the host calls is called like any other", "statement": "When the host calls a script function, itself or from a native function that a script is calling, the function gets the arguments of the host and starts with its missing parameters at their defaults and its other variables undefined, and the pending operands of the calling script stay what they are.", "quantifier": "all programs as for C120 with native functions that call script functions; all sequences of evaluations and host calls, with any number of arguments", "why_tests_cant": "depends on every nesting of native and script calls and on what earlier calls left in memory", "anchors": ["src/vm/vm.cpp: vm_execute", "src/vm/vm_script_function.cpp: vm_execute_script_function", "src/vm/vm_native_function.cpp: vm_execute_native_function", "src/ScriptEngine.tcc: ScriptEngine::bindScriptFunction"]}
{"id": "C122", "title": "A function that is defined again is the new one for every caller", "statement": "When a script defines a function of a name that has one already, every call of that name from then on runs the new definition, in functions compiled before as well; a script that is refused leaves the functions as they were.", "quantifier": "all sequences of scripts that define functions and define them again, call each other by name and call native functions, with refused scripts among them", "why_tests_cant": "depends on every order of definitions, calls and refusals, and on what call sites remember from earlier runs", "anchors": ["src/core/function/ScriptFunction.cpp: ScriptFunction::registerLocalFunction, ScriptFunction::clear, ScriptFunction::linkUnresolvedSymbols", "src/ScriptEngine.cpp: ScriptEngine::link, ScriptEngine::addUnresolvedSymbol", "src/compiler/compiler.cpp: compiler_compile_and_link, compiler_pop_and_compile_function", "src/vm/vm_call.cpp: vm_call"]}
{"id": "C123", "title": "Functions may be defined in any order", "statement": "A function may call functions that are defined after it, in the same script or a later one: the call runs the function of that name as soon as there is one, and is a script error before.", "quantifier": "all sequences of scripts in which every function is defined once, with calls anywhere in expressions, arguments and choices", "why_tests_cant": "depends on every order in which functions are defined, linked and called", "anchors": ["src/core/function/ScriptFunction.cpp: ScriptFunction::registerLocalFunction, ScriptFunction::clear, ScriptFunction::linkUnresolvedSymbols", "src/ScriptEngine.cpp: ScriptEngine::link, ScriptEngine::addUnresolvedSymbol", "src/compiler/compiler.cpp: compiler_compile_and_link, compiler_pop_and_compile_function", "src/vm/vm_call.cpp: vm_call"]}
{"id": "C124", "title": "Reports of errors say what was raised, where, and through which calls", "statement": "The exception that the host catches carries the message of the error with every text in it as it was given, one line for each call that was active, innermost first, and the file and line of the error if it has one; a refused file reports its place and every import on the way to it.", "quantifier": "all histories of runs that fail (with any message, from the script, the engine, the library or the host, through any calls), runs that succeed, and refused texts and files with errors at any depth of imports", "why_tests_cant": "depends on every text that can be part of a message and on the errors that were reported before", "anchors": ["src/vm/vm.cpp: vm_set_error, vm_set_file_line_error, vm_reset_error_vars, vm_execute", "src/vm/vm_call.cpp: vm_call, vm_inner_call", "src/base/Exception.cpp: throw_exception_file_line, throw_exception", "src/base/String.cpp: String::format", "src/base/Path.cpp: Path::getFilename", "src/ScriptEngine.cpp: ScriptEngine::compileFile", "src/compiler/compiler.cpp: compiler_compile_and_link"]}
{"id": "C125", "title": "A script object in the hands of the host is a map with ordered keys", "statement": "After any history of set, erase and eraseAll by the host on an object, get gives under each key what was put there last, as it was when it was put, whatever the host did to its memory since; other keys are errors; exists, erase, length and getKeys agree with that, the keys in the order in which they came; an object that the host put ends when it is overwritten or erased.", "quantifier": "all histories of operations of the host on one object and on its own memory, with any keys and values of any C++ types", "why_tests_cant": "depends on all keys, values and histories, and on what the host does with its memory in between", "anchors": ["src/core/object/ObjectScriptObject.tcc: ObjectScriptObject::get, ObjectScriptObject::set", "src/core/object/ObjectScriptObject.cpp: setStackElementByKeyName, getStackElementByKeyName, exists, length, getKeys, erase, eraseAll", "src/core/object/ScriptObject.cpp: ScriptObject::unrefStackElementContainer", "src/vm/vm_share_manager.cpp: vm_create_shared_object, vm_unref_shared_object", "src/ScriptEngine.cpp: ScriptEngine::stackElementAssign"]}
{"id": "C126", "title": "A function bound by its path is the one a script calls by that path", "statement": "bindScriptFunction(\"a.b.f\") gives a function that calls, on the same object, what a script calls with a.b.f(...) at that moment; a path that a script cannot call is refused; a single name is bound to the function of the main scope with that name.", "quantifier": "all histories of evaluated scripts, registered constants, saved and cleared states, all objects, classes and fields, and all paths of any length", "why_tests_cant": "depends on every history of scripts that gave the globals their places and on every shape of objects on the path", "anchors": ["src/ScriptEngine.tcc: ScriptEngine::bindScriptFunction(const String &)", "src/vm/vm.cpp: vm_get_stack_element_at, vm_assign_container_slot", "src/core/type/ScriptType.cpp: ScriptType::getSymbolMemberFunction", "src/core/object/ObjectScriptObject.cpp: ObjectScriptObject::getStackElementByKeyName", "src/base/String.cpp: String::split", "src/ScriptEngine.cpp: ScriptEngine::registerConstantString"]}
{"id": "C127", "title": "A literal and a field name stand for the text written, whatever was compiled before", "statement": "Every string literal, every field name of an object literal and every sum of literals stands for the text that is written, and still does after anything else was compiled or run: literals that look alike share one string object, those that do not look alike never do, and names in quotes follow the same rules as literals.", "quantifier": "all lists of literals, field names and sums of literals that one engine compiles, with any texts", "why_tests_cant": "depends on every pair of literals in all scripts an engine compiles and on every text with quotes and backslashes", "anchors": ["src/compiler/compiler_symbol.cpp: compiler_symbol", "src/compiler/compiler_object.cpp: compiler_object_identifier, compiler_object_object", "src/compiler/compiler_expression_optimize.cpp: compiler_expression_perform_KK_operation", "src/compiler/compiler.cpp: compiler_copy_const_char_diff", "src/ScriptEngine.cpp: ScriptEngine::registerStkConstantStringScriptObject, ScriptEngine::getStkConstantStringScriptObject"]}
{"id": "C128", "title": "An object literal has the fields written, in order", "statement": "An object literal gives an object with exactly the fields that are written, each once, in the order in which their names first appear and with the value written last for it; o[\"name\"] and o.name with the name as written give that value, any other name is an error, whatever was compiled before, in the values or later.", "quantifier": "all object literals with any number of fields and any names, all texts compiled before, within and after", "why_tests_cant": "depends on every combination of names, repeated ones too, and on all constants compiled before", "anchors": ["src/compiler/compiler_object.cpp: compiler_object_object, compiler_object_identifier", "src/vm/vm_container.cpp: vm_push_container_item, vm_load_vector_item", "src/core/object/ObjectScriptObject.cpp: ObjectScriptObject::setStackElementByKeyName, ObjectScriptObject::getStackElementByKeyName", "src/ScriptEngine.cpp: ScriptEngine::registerStkConstantStringScriptObject"]}
{"id": "C129", "title": "Integer::parse and Float::parse give the number the argument stands for", "statement": "Integer::parse turns an integer into itself, a float into its integer part, and a text that spells an integer (with or without a minus sign; decimal, hexadecimal or binary) into that integer; Float::parse turns an integer or a float into the same number and a decimal text into its value; anything that is neither number nor text is a script error. This does not depend on what the same place in the script converted before.", "quantifier": "all histories of executions of one call, all integers, all 64-bit floats, all texts, all memory contents", "why_tests_cant": "the call remembers the function it ran last, so its behaviour depends on the whole history of argument types; texts and floats are unbounded", "anchors": ["src/core/type/ScriptTypesFactory.cpp: parseInt, parseFloat, intMaxValue, floatMaxValue, ScriptTypesFactory::setup", "src/base/Integer.cpp: Integer::parse", "src/base/Float.cpp: Float::parse", "src/vm/vm_call.cpp: getInstructionFunctionLastCall", "src/vm/vm_native_function.cpp: vm_find_native_function, vm_execute_native_function", "src/ScriptEngine.cpp: ScriptEngine::canStackElementCastTo, ScriptEngine::stackElementTo"]}
{"id": "C130", "title": "isNumber is true exactly of integers and floats, and Integer::MAX_VALUE is the greatest integer", "statement": "isNumber(x) is true if x is an integer or a float and false for texts, booleans, null, undefined, functions and objects, also when x is reached through a reference; no integer exceeds Integer::MAX_VALUE.", "quantifier": "all values of all kinds, direct or through references, all memory contents", "why_tests_cant": "values and references are unbounded in number and the flags of an element combine", "anchors": ["src/core/type/ScriptTypesFactory.cpp: isNumber, intMaxValue", "src/vm/vm_native_function.cpp: vm_execute_native_function", "src/ScriptEngine.cpp: ScriptEngine::stackElementTo", "src/core/StackElement.h: StackElement"]}
{"id": "C131", "title": "A class accepts exactly the functions and bases that do not clash", "statement": "A native function is accepted by a class exactly if no function the class has (own or inherited) has its name and parameter types. A script function is accepted exactly if the last function of that name was not defined in this class, and it overrides a member function of another class or its name is no type's (a constructor's is its class's) and no function of the class has its name and number of parameters. extends<T,B> on registered native types is accepted exactly if C++ knows B as a base of T, T does not inherit from B yet and B is unrelated to each base of T, provided no script class has named itself as its base. What is accepted is added at the end; what is refused changes nothing.", "quantifier": "all registries and functions; for bases all histories of registrations in which no class names itself as base", "why_tests_cant": "Whether a registration clashes depends on every class, base and function registered before", "anchors": ["src/core/type/ScriptType.cpp: ScriptType::registerMemberFunction, ScriptType::getSymbolMemberFunction", "src/core/function/ScriptFunction.cpp: checkNativeFunctionParams", "src/core/function/ScriptFunctionsFactory.cpp: ScriptFunctionsFactory::newFunction", "src/core/scope/ScriptScope.cpp: ScriptScope::registerSymbolFunction, ScriptScope::getSymbol", "src/core/type/ScriptTypesFactory.tcc: extends", "src/core/type/ScriptTypesFactory.cpp: ScriptTypesFactory::scriptTypeInheritsFrom"]}
{"id": "C132", "title": "Prefix and postfix operators and delimiters are recognised by their spelling", "statement": "Before an operand ++ and -- are recognised exactly where the text begins with them, + and - exactly where the text begins with one of them and no + or - follows, ! exactly where no = follows, ~ wherever it stands and typeof exactly as a word followed by a space or the end of a line; behind an operand ++ and --. +- and -+ are recognised as what they are, to be refused; nothing else is. The separators are , ; ( ) [ ] and the characters that end a word blanks, line ends, the end of the text and . ( ) { } [ ] : ;.", "quantifier": "all source texts and positions", "why_tests_cant": "All texts around an operator.", "anchors": ["src/compiler/compiler_data.cpp: is_pre_operation, is_post_operation, is_operator_typeof, is_separator, is_special_char"]}
{"id": "C133", "title": "Comments and blanks around a JSON value do not matter", "statement": "Deserialising a text with blanks, line ends (LF or CR LF), /* */ comments and // comments in front of or behind a value gives the same as deserialising the value alone.", "quantifier": "all texts without backslash, all mixtures and lengths of blanks and comments", "why_tests_cant": "comments of any length and content may be mixed with blanks in any order", "anchors": ["src/module/JsonDeserializeModule.cpp: is_start_comment, is_end_comment, advance_to_end_comment, eval_ignore_blanks, advance_to_one_of_collection_of_char, deserialize_value"]}
{"id": "C134", "title": "The functions of Math take numbers and refuse everything else", "statement": "Called with the number of arguments it takes, a function of Math gives a number if all arguments are integers or floats, and is an error if one is not; called with another number of arguments it is an error.", "quantifier": "all functions of Math modelled, all lists of arguments of any kind, all memories", "why_tests_cant": "Arguments may be references, strings, objects, functions or missing, in any combination", "anchors": ["src/module/MathModule.cpp: MathModule_abs, MathModule_pow, MathModule_max, MathModule_min, MathModule_floor, MathModule_ceil, MathModule_round", "src/vm/vm_native_function.cpp: vm_execute_native_function", "src/ScriptEngine.cpp: ScriptEngine::stackElementTo, ScriptEngine::ScriptEngine"]}
{"id": "C135", "title": "max, min, abs, floor, ceil and round give the number that their names say", "statement": "Math::max and Math::min give one of their two arguments, which is not below (above) either; abs the absolute value; floor, ceil and round the greatest integer not above, the least not below and the nearest (halves away from zero), in whatever order and as whatever kind of number the arguments are given.", "quantifier": "all integers and floats", "why_tests_cant": "must hold for every pair of 64-bit patterns", "anchors": ["src/module/MathModule.cpp: MathModule_abs, MathModule_pow, MathModule_max, MathModule_min, MathModule_floor, MathModule_ceil, MathModule_round", "src/vm/vm_native_function.cpp: vm_execute_native_function", "src/ScriptEngine.cpp: ScriptEngine::stackElementTo, ScriptEngine::ScriptEngine"]}
{"id": "C136", "title": "sin, cos and pow compute with the numbers they are given", "statement": "Math::sin, Math::cos and Math::pow give what the C library gives for the very numbers handed over; a number to the power of one is that number.", "quantifier": "all integers and floats, all implementations of the C functions", "why_tests_cant": "must hold for every float and whatever the C library computes", "anchors": ["src/module/MathModule.cpp: MathModule_sin, MathModule_cos, MathModule_pow"]}
{"id": "C137", "title": "Math::random is at least 0 and less than 1", "statement": "Math::random() gives a float that is at least 0 and less than 1, close to rand() / (RAND_MAX + 1).", "quantifier": "all values of rand()", "why_tests_cant": "a test meets one of the greatest 64 values of rand() once in 33 million calls", "anchors": ["src/module/MathModule.cpp: MathModule_random"]}
{"id": "C138", "title": "A file name in an import is relative to the directory of the importing file", "statement": "Wherever the program is run from and by whatever path a file is given or imported, the names that it imports name files relative to the directory that contains it; an import is an error of a missing file only if there is no file of that name there.", "quantifier": "all file systems, current directories, names of files and chains of imports of any depth", "why_tests_cant": "must hold for every layout of directories, every way to write a path, and every depth of imports", "anchors": ["src/base/Path.cpp: Path::getDirectory", "src/base/Directory.cpp: Directory::changeDir, Directory::getCurrentDirectory, Directory::exists", "src/ScriptEngine.cpp: ScriptEngine::compileFile, ScriptEngine::isFilenameAlreadyParsed", "src/compiler/compiler.cpp: compiler_compile_recursive"]}
{"id": "C139", "title": "Compiling a file leaves the process in the directory in which it was", "statement": "After compileFile, and so after compileFileAndRun and after each import, the current directory of the process is what it was before, whatever the names of the files are and also if a file was missing or had an error; and compiling ends.", "quantifier": "all file systems, current directories, names of files, chains of imports of any depth, with and without errors", "why_tests_cant": "the directory is changed and restored once per file, on normal and on error paths, at any depth", "anchors": ["src/base/Path.cpp: Path::getDirectory", "src/base/Directory.cpp: Directory::changeDir, Directory::getCurrentDirectory, Directory::exists", "src/ScriptEngine.cpp: ScriptEngine::compileFile, ScriptEngine::isFilenameAlreadyParsed", "src/compiler/compiler.cpp: compiler_compile_recursive"]}
{"id": "C140", "title": "An assertion fails with its message exactly if what it checks is not true", "statement": "System::assert(c, m, ...) does nothing if c is true; if c is false it raises an error of the script whose message is 'Assert error :' and m filled with the arguments; if c is not a boolean it raises one that names the type of c. System::error(m, ...) raises one whose message is m filled with the arguments.", "quantifier": "all values checked, all messages and lists of arguments", "why_tests_cant": "messages with places for arguments are only looked at when an assertion fails, for every text and every argument", "anchors": ["src/module/SystemModule.cpp: SystemModule_error", "src/ScriptEngine.cpp: ScriptEngine::init", "src/core/object/StringScriptObject.cpp: StringScriptObject::format, StringScriptObject::newStringScriptObjectAddStk"]}
{"id": "C141", "title": "Console functions write what String::format gives, to their stream", "statement": "A sequence of calls of Console::out, outln, error and errorln writes the texts that String::format gives for their arguments, in order, out and outln to the standard output and error and errorln to the standard error, outln and errorln with the end of a line behind; a call that String::format refuses is an error of the script and writes nothing.", "quantifier": "all sequences of calls with any values, format texts and lists of arguments", "why_tests_cant": "must hold for all sequences of calls to both streams and all values", "anchors": ["src/module/ConsoleModule.cpp: ConsoleModule_out, ConsoleModule_outln, ConsoleModule_error, ConsoleModule_errorln", "src/ScriptEngine.cpp: ScriptEngine::init"]}
{"id": "C142", "title": "The clock tells the seconds since its first call", "statement": "The first call of System::clock() gives 0; every later one gives the seconds that have passed since then, up to one part in 2^51; of two calls the later does not give less, and gives more if it is at least a millisecond later.", "quantifier": "all sequences of calls at any times and all settings of the system's clock", "why_tests_cant": "time passes and clocks are set between any two calls, rounding differs for every number of milliseconds", "anchors": ["src/base/System.cpp: System::clock", "src/module/SystemModule.cpp: SystemModule_clock"]}
{"id": "C143", "title": "< orders integers and floats together", "statement": "On all numbers of a script, integers and floats in any mixture, < is transitive, no number is less than itself, and of two numbers at most one is less than the other.", "quantifier": "all triples of numbers, in variables and constants", "why_tests_cant": "all triples of 64-bit integers and floats, each pair compared by its own rule", "anchors": ["src/vm/vm_operation.h: ZS_VM_OPERATION_COMPARE"]}
{"id": "C144", "title": "<= and == are transitive on numbers", "statement": "On all numbers of a script, integers and floats in any mixture, <= and == are transitive, and two numbers are equal exactly if each is at most the other.", "quantifier": "all triples of numbers, in variables and constants", "why_tests_cant": "all triples of 64-bit integers and floats, each pair compared by its own rule", "anchors": ["src/vm/vm_operation.h: ZS_VM_OPERATION_COMPARE"]}
{"id": "C145", "title": "Adding the same number keeps the order", "statement": "If x <= y then x + c <= y + c, for all numbers x, y and c.", "quantifier": "all triples of numbers, in variables and constants", "why_tests_cant": "rounding differs for every pair of floats, overflow depends on the values", "anchors": ["src/vm/vm_operation.h: ZS_VM_OPERATION_ADD, ZS_VM_OPERATION_COMPARE"]}
{"id": "C146", "title": "Math::degToRad keeps the order of angles", "statement": "For all numbers of degrees, integers and floats in any mixture, the smaller angle in degrees gives an angle in radians that is not greater than that of the other; 0 degrees give 0 and 180 degrees give Math::PI exactly.", "quantifier": "all pairs of numbers", "why_tests_cant": "both the product and the quotient are rounded, differently for every float", "anchors": ["src/module/MathModule.cpp: MathModule_degToRad, MathModule_PI"]}
{"id": "C147", "title": "Math::degToRad gives the radians", "statement": "For every finite number x, Math::degToRad(x) is x*Math::PI/180 up to one part in 2^51.", "quantifier": "all finite numbers", "why_tests_cant": "an error that depends on the number, for 2^64 numbers", "anchors": ["src/module/MathModule.cpp: MathModule_degToRad, MathModule_PI"]}
{"id": "C148", "title": "Math::sqrt gives roots, exact ones exactly, in order", "statement": "For every finite number that is not negative, the square of Math::sqrt of it is the number up to one part in 2^51. If the root of a number is a float, Math::sqrt gives exactly it, so Math::sqrt(k*k) is the absolute value of k for every integer k with k*k at most 2^53; of two numbers that are not negative the smaller has no greater root; a negative number or NaN gives NaN.", "quantifier": "all numbers and pairs of numbers", "why_tests_cant": "exactness and monotonicity for all floats", "anchors": ["src/module/MathModule.cpp: MathModule_sqrt"]}
{"id": "C149", "title": "Multiplying with the same number keeps the order", "statement": "If x <= y and 0 <= c then x * c <= y * c, for all numbers x, y and c.", "quantifier": "all triples of numbers, in variables and constants", "why_tests_cant": "rounding differs for every pair of floats, overflow depends on the values", "anchors": ["src/vm/vm_operation.h: ZS_VM_OPERATION_ARITHMETIC, ZS_VM_OPERATION_COMPARE"]}
{"id": "C150", "title": "The sign of x - y tells the order of x and y", "statement": "x - y is less than, equal to or greater than 0 exactly if x is less than, equal to or greater than y, for all numbers x and y, so that scripts can compare by subtracting.", "quantifier": "all pairs of numbers, in variables and constants", "why_tests_cant": "a difference of two floats may be rounded to zero, or overflow, for single pairs only", "anchors": ["src/vm/vm_operation.h: ZS_VM_OPERATION_ARITHMETIC, ZS_VM_OPERATION_COMPARE"]}
{"id": "C151", "title": "A string literal ends at its closing quote", "statement": "A string literal ends at the first double quote that is not escaped; a literal that is not closed before the end of its line is not closed by a quote of a later line.", "quantifier": "all string literals, with all escapes", "why_tests_cant": "all texts and patterns of backslashes", "anchors": ["src/compiler/compiler_symbol.cpp: compiler_symbol", "src/compiler/compiler_object.cpp: compiler_object_identifier"]}
