{
 "claims": [
  {
   "property": "C01",
   "status": "proved",
   "theorems": [
    "Verif.Map.map_is_finite_map",
    "Verif.Map.mapString_is_finite_map",
    "Verif.Map.mapInt_is_finite_map",
    "Verif.Map.map_failed_erase_no_effect"
   ],
   "note": "Every history below the maximum size; node memory as ids, malloc succeeds."
  },
  {
   "property": "C02",
   "status": "proved",
   "theorems": [
    "Verif.Map.map_enumerates_in_insertion_order"
   ],
   "note": "Iterator loop over the intrusive list, every history below the maximum size."
  },
  {
   "property": "C03",
   "status": "partial",
   "theorems": [
    "Verif.Vector.vector_refines_list_partial",
    "Verif.Vector.vector_get_beyond_length_violated",
    "Verif.Vector.vector_erase_beyond_length_violated",
    "Verif.Vector.vector_assign_empty_violated",
    "Verif.Vector.vector_insert_past_end_violated",
    "Verif.Vector.vector_insert_prefix_length_violated",
    "Verif.Vector.resize_exact"
   ],
   "note": "The code violates the full property: bounds are checked against the capacity. Proved for positions inside the sequence (or rejected ones)."
  },
  {
   "property": "C04",
   "status": "partial",
   "theorems": [
    "Verif.Ring.lists_stay_rings_partial",
    "Verif.Ring.list_foreign_remove_violated",
    "Verif.Ring.list_destructor_diverges_violated"
   ],
   "note": "Holds when a node is only removed from the list that holds it; violated for foreign removal, and the destructor of the template list does not terminate on a non-empty list."
  },
  {
   "property": "C05",
   "status": "partial",
   "theorems": [
    "Verif.Str.substring_exact_partial",
    "Verif.Str.substring_then_unescape",
    "Verif.Str.substring_backslash_violated"
   ],
   "note": "All index pairs; the result passes through escape processing, so strings containing a backslash violate the exact statement."
  },
  {
   "property": "C06",
   "status": "partial",
   "theorems": [
    "Verif.Str.split_char_inverts_join",
    "Verif.Str.split_string_inverts_join",
    "Verif.Str.split_script_backslash_violated",
    "Verif.Str.split_empty_delimiter_diverges"
   ],
   "note": "Proved for the native split of every string and non-empty delimiter; the script method additionally unescapes the pieces (violation with backslashes)."
  },
  {
   "property": "C07",
   "status": "partial",
   "theorems": [
    "Verif.Str.replace_exact",
    "Verif.Str.replace_correct_partial",
    "Verif.Str.replace_whole_violated"
   ],
   "note": "Exact behaviour proved for all inputs; the code throws when the result would be empty."
  },
  {
   "property": "C08",
   "status": "partial",
   "theorems": [
    "Verif.Str.copy_preserves_partial",
    "Verif.Str.copy_total",
    "Verif.Str.copy_backslash_violated"
   ],
   "note": "Holds for strings without backslash; every store un-escapes again."
  },
  {
   "property": "C09",
   "status": "partial",
   "theorems": [
    "Verif.Str.find_first",
    "Verif.Str.contains_exact_partial",
    "Verif.Str.contains_empty_violated",
    "Verif.Str.startsWith_exact",
    "Verif.Str.endsWith_exact"
   ],
   "note": "Only the empty needle in the empty string is answered wrongly."
  },
  {
   "property": "C10",
   "status": "partial",
   "theorems": [
    "Verif.Str.case_conversion_partial",
    "Verif.Str.case_conversion_idempotent_partial",
    "Verif.Str.case_conversion_long_throws",
    "Verif.Str.case_conversion_long_violated"
   ],
   "note": "Up to 32767 characters; longer strings throw because the loop index is a short."
  },
  {
   "property": "C100",
   "status": "proved",
   "theorems": [
    "Verif.ImportProps.imports_end"
   ],
   "note": "The model compiles with a depth of one more than the number of imports written in the text and all files; the theorem says that this depth is never reached, for every history."
  },
  {
   "property": "C101",
   "status": "partial",
   "theorems": [
    "Verif.EvalProps.eval_partial",
    "Verif.EvalProps.eval_gives_violated",
    "Verif.EvalProps.eval_operand_lost_violated",
    "Verif.EvalProps.eval_fewer_values_violated",
    "Verif.EvalProps.eval_more_values_violated",
    "Verif.EvalProps.eval_value_without_return_violated"
   ],
   "note": "Proved (eval_partial) for code that returns as many values as are taken, with any parameters and local variables, and for code that ends without return when one value is taken and there are not more parameters than arguments of eval. Violated otherwise: code without return and more than two parameters overwrites operands of the expression around the call; if fewer values are returned than taken, the first ones are undefined; if more, the last ones are given; an expression as last statement gives a value when two are taken."
  },
  {
   "property": "C102",
   "status": "partial",
   "theorems": [
    "Verif.FormatProps.format_partial",
    "Verif.FormatProps.format_escaped",
    "Verif.FormatProps.format_fills_violated",
    "Verif.FormatProps.format_backslash_violated",
    "Verif.FormatProps.format_index_violated",
    "Verif.FormatProps.format_order_violated",
    "Verif.FormatProps.format_braces_violated"
   ],
   "note": "Proved (format_partial) for any sequence of pieces with numbers below 2^31, integers below 6755399441055749 in absolute value and no backslash in the text or the result; format_escaped says what happens to backslashes. Violated otherwise: arguments with backslashes are unescaped, indices are cut to 32 bits; also {0:d2,3} disappears and braces around a place are an error."
  },
  {
   "property": "C103",
   "status": "partial",
   "theorems": [
    "Verif.FormatProps.format_defined_partial",
    "Verif.FormatProps.format_ends",
    "Verif.FormatProps.format_defined_violated",
    "Verif.FormatProps.format_long_violated",
    "Verif.FormatProps.format_least_violated"
   ],
   "note": "Formatting always ends (format_ends). Proved to be defined for texts of at most 450 characters and integers other than the least. Violated: 450 or more characters in braces overrun the buffer of the error message; the least integer."
  },
  {
   "property": "C104",
   "status": "partial",
   "theorems": [
    "Verif.Vm.Bridge.roundtrip_partial",
    "Verif.Vm.Bridge.roundtrip_violated",
    "Verif.Vm.Bridge.roundtrip_backslash_violated",
    "Verif.Vm.Bridge.roundtrip_null_violated",
    "Verif.Vm.Bridge.roundtrip_null_text_violated",
    "Verif.Vm.Bridge.roundtrip_dangling_violated",
    "Verif.Vm.Bridge.roundtrip_function_violated"
   ],
   "note": "Proved for all values but those that Plain excludes. Violated: texts by characters or String results with a backslash are unescaped, null pointers to numbers cannot be taken back and a null const char * comes back as an empty text, zs_int *, zs_float *, bool * and StackElement * dangle when taken by value or as result of a bound function, a ScriptFunction * cannot be given to a script."
  },
  {
   "property": "C105",
   "status": "partial",
   "theorems": [
    "Verif.Vm.Bridge.given_stays_partial",
    "Verif.Vm.Bridge.given_string_follows",
    "Verif.Vm.Bridge.given_string_written",
    "Verif.Vm.Bridge.given_string_freed_violated",
    "Verif.Vm.Bridge.given_stays_violated"
   ],
   "note": "Proved for all values but a String given by its address. Such a String is shared: the script has its current text (given_string_follows) and writes to it are seen by the host (given_string_written); when the host destroys it the script reads freed memory."
  },
  {
   "property": "C106",
   "status": "partial",
   "theorems": [
    "Verif.Vm.Bridge.array_holds_partial",
    "Verif.Vm.Bridge.array_holds_violated",
    "Verif.Vm.Bridge.array_twice_violated"
   ],
   "note": "Proved for numbers, truth values, texts by characters without backslashes, objects of registered classes and script objects that are put once and that no script has. Violated: an object that is shared already (put twice, or had by a script) is refused."
  },
  {
   "property": "C107",
   "status": "partial",
   "theorems": [
    "Verif.Vm.StrVal.own_values_partial",
    "Verif.Vm.StrVal.shared_element_violated",
    "Verif.Vm.StrVal.shared_parameter_violated",
    "Verif.Vm.StrVal.backslash_violated",
    "Verif.Vm.StrVal.literal_operand_violated",
    "Verif.Vm.StrVal.setter_parameter_violated"
   ],
   "note": "Proved for all scripts whose texts have no backslash, in which a string that shares its object (by an array or object literal, push or as argument) is not assigned a string, added to or edited, and in which literals are not given to setters, to operators of classes or edited. Violated: x=[s]; s=\"b\" changes x[0]; += on a parameter changes the caller's string; each store unescapes a text again; obj-\"a\" throws where the class defines the operator; a setter cannot assign to its parameter when it was given a literal."
  },
  {
   "property": "C108",
   "status": "partial",
   "theorems": [
    "Verif.Vm.StrVal.literal_kept_partial",
    "Verif.Vm.StrVal.literal_method_violated",
    "Verif.Vm.StrVal.literal_setter_violated"
   ],
   "note": "Proved for all scripts that call no editing method on a literal and give none to a setter, whatever else they do. Violated: \"a\".append(\"b\") changes the literal for good, and so does += on the parameter of a setter that was given a literal."
  },
  {
   "property": "C109",
   "status": "proved",
   "theorems": [
    "Verif.Vm.StrVal.expression_changes_nothing"
   ],
   "note": "Proved after every script of the model, with sharing, setters and edited literals too."
  },
  {
   "property": "C11",
   "status": "partial",
   "theorems": [
    "Verif.Integer.integer_roundtrip_partial",
    "Verif.Integer.toString_terminates",
    "Verif.Integer.toString_exact",
    "Verif.Integer.toString_padded",
    "Verif.Integer.parse_decimal",
    "Verif.Integer.roundtrip_negative_violated",
    "Verif.Integer.roundtrip_large_violated",
    "Verif.Integer.roundtrip_min_violated",
    "Verif.Integer.toString_padded_wide_violated"
   ],
   "note": "Round trip proved for 0 <= n < 6755399441055749, the exact limit: the digit loop divides by multiplying with the double 0.1. Negative numbers never round-trip, the least integer overflows."
  },
  {
   "property": "C110",
   "status": "proved",
   "theorems": [
    "Verif.Vm.Weak.stored_method_call"
   ],
   "note": "Proved against a specification with identities that are never used again. When objects are freed is decided by the reference counts (modelled in Verif.Vm.Share): here they may end at any time."
  },
  {
   "property": "C111",
   "status": "partial",
   "theorems": [
    "Verif.Vm.Weak.stored_method_use_partial",
    "Verif.Vm.Weak.print_violated",
    "Verif.Vm.Weak.bound_violated",
    "Verif.Vm.Weak.bound_other_object_violated"
   ],
   "note": "Proved for all histories in which methods are printed, and bound functions called, only while their objects live. Violated: printing a stored method whose object has ended dereferences NULL; a bound function keeps the address of the object, so after its end it runs on freed memory, or on another object made there."
  },
  {
   "property": "C112",
   "status": "proved",
   "theorems": [
    "Verif.Vm.Abort.reported_errors"
   ],
   "note": "A run is given by what happens in it: variables, blocks, calls, constructors, callbacks, eval, errors. Errors reported by the machine only: exceptions thrown by instructions, and host functions that catch exceptions of callbacks, are in C113 (thrown_violated, guarded_violated)."
  },
  {
   "property": "C113",
   "status": "partial",
   "theorems": [
    "Verif.Vm.Abort.error_leaves_nothing_partial",
    "Verif.Vm.Abort.thrown_violated",
    "Verif.Vm.Abort.thrown_leaves_violated",
    "Verif.Vm.Abort.constructor_violated",
    "Verif.Vm.Abort.refused_call_violated",
    "Verif.Vm.Abort.host_argument_violated",
    "Verif.Vm.Abort.eval_argument_violated",
    "Verif.Vm.Abort.guarded_violated"
   ],
   "note": "Proved for all histories without what follows. Violated: an instruction that throws (such as an operator of a class with a literal string as operand) leaves the machine in its function, and every later run of a main script is refused for ever; an error in a constructor leaks the object; a refused call leaks objects among its arguments (no room, too deep, failing default value); a call of the host with new objects leaks them when it fails; so does eval of a text that does not compile; a host function that catches the exception of a callback returns to a function whose entry is gone."
  },
  {
   "property": "C114",
   "status": "partial",
   "theorems": [
    "Verif.Dates.spans_move_partial",
    "Verif.Dates.spans_violated"
   ],
   "note": "Proved for all sequences of spans of less than 2^31 seconds each, against a specification by successors of days and weekdays. Violated: the number is cut to 32 bits (2^32 seconds are none) and multiplied in int (24856 days are undefined behaviour). The local time zone is modelled as UTC without summer time; localtime and mktime are modelled from their C contract."
  },
  {
   "property": "C115",
   "status": "partial",
   "theorems": [
    "Verif.Dates.always_a_day_partial",
    "Verif.Dates.month_later_violated",
    "Verif.Dates.month_earlier_violated",
    "Verif.Dates.weekday_violated",
    "Verif.Dates.sub_changes_violated"
   ],
   "note": "Proved for all sequences in which months and years are added only where the day exists and months are not counted back across New Year; the weekday is right unless months or years were added last. Violated: a month after 31 January is 31 February; a month before January is month 0; a year later the weekday is still the old one; and such a date changes when it is subtracted, because mktime writes to it."
  },
  {
   "property": "C116",
   "status": "partial",
   "theorems": [
    "Verif.Shell.console_partial",
    "Verif.Shell.end_of_input_violated",
    "Verif.Shell.endless_violated",
    "Verif.Shell.clear_again_violated",
    "Verif.Shell.long_line_violated",
    "Verif.Shell.pieces_violated"
   ],
   "note": "Proved for all inputs with a line exit or quit, and lines of up to 254 bytes without zero bytes before it, for any engine. Violated: an input that ends after a line is undefined behaviour (null pointer), one that ends within a line or after clear makes the program ask for ever, and clear is done twice; a line of 255 bytes or more is undefined behaviour, or after clear or save is run in pieces. Exceptions other than zetscript::Exception, failures of reading and of malloc are not modelled."
  },
  {
   "property": "C117",
   "status": "proved",
   "theorems": [
    "Verif.Shell.arguments"
   ],
   "note": "The exit status is always zero, also if the script fails, does not exist or an option is unknown (status_violated); --print-byte-code-system alone prints nothing. The engine and the file system are parameters."
  },
  {
   "property": "C118",
   "status": "partial",
   "theorems": [
    "Verif.DateText.read_back_partial",
    "Verif.DateText.own_text_partial",
    "Verif.DateText.half_first_violated",
    "Verif.DateText.separator_first_violated",
    "Verif.DateText.other_years_violated",
    "Verif.DateText.field_number"
   ],
   "note": "Proved for all formats that start with a letter and do not have the hour after AM or PM. Violated: tt before hh is forgotten, a format that starts with a separator throws, the text of a date before the year 1000 is read as another date and that of one after 9999 is an error."
  },
  {
   "property": "C119",
   "status": "partial",
   "theorems": [
    "Verif.DateText.written_partial",
    "Verif.DateText.capitals_violated",
    "Verif.DateText.clipped_violated"
   ],
   "note": "Proved for all formats without capital letters that do not end with a single letter after another letter. Violated: the format is converted to small letters first, so that MM writes the minutes and HH a 12-hour clock; a single last letter after another letter is dropped."
  },
  {
   "property": "C12",
   "status": "partial",
   "theorems": [
    "Verif.Integer.classification_partial",
    "Verif.Integer.isInteger_int_iff",
    "Verif.Integer.isInteger_hexa_iff",
    "Verif.Integer.isInteger_binary_iff",
    "Verif.Integer.parse_decimal",
    "Verif.Integer.parse_hexadecimal",
    "Verif.Integer.parse_binary",
    "Verif.Integer.classification_violated",
    "Verif.Integer.classification_binary_violated"
   ],
   "note": "All grammatical literals are classified and valued correctly; the exact accepted languages are characterised; they are larger than the grammar."
  },
  {
   "property": "C120",
   "status": "proved",
   "theorems": [
    "Verif.Frames.own_variables"
   ],
   "note": "Refinement of a machine with one shared stack, its pointer and the frames over it, to environments. For calls with fewer than 16 arguments (the count is kept in four bits, see C36) and below the limits of stack and recursion (C38)."
  },
  {
   "property": "C121",
   "status": "partial",
   "theorems": [
    "Verif.Frames.host_calls_partial",
    "Verif.Frames.missing_argument_violated"
   ],
   "note": "Proved for host calls with at least as many arguments as parameters. Violated: with fewer, the missing parameters are not set to their defaults, or to undefined, but are whatever an earlier evaluation left in memory."
  },
  {
   "property": "C122",
   "status": "partial",
   "theorems": [
    "Verif.Redef.redefined_partial",
    "Verif.Redef.redefines_violated",
    "Verif.Redef.stale_call_violated",
    "Verif.Redef.emptied_violated",
    "Verif.Redef.never_violated",
    "Verif.Redef.kept_violated"
   ],
   "note": "Proved when no function that calls an overloaded native function is defined twice and no refused script contains a function. Violated: what a call site remembers outlives the code, so that the new definition calls the native function of the old one; a function with a syntax error in a refused script has no code afterwards and calling it reads through a null pointer; other functions of a refused script replace those before."
  },
  {
   "property": "C123",
   "status": "proved",
   "theorems": [
    "Verif.Redef.any_order"
   ],
   "note": "Refused scripts may come in between if they contain no function (C122). Native functions of one name exclude each other (C39)."
  },
  {
   "property": "C124",
   "status": "partial",
   "theorems": [
    "Verif.Err.reports_partial",
    "Verif.Err.error_exact",
    "Verif.Err.percent_violated",
    "Verif.Err.percents_violated",
    "Verif.Err.field_violated",
    "Verif.Err.file_name_violated",
    "Verif.Err.stale_file_violated",
    "Verif.Err.literal_violated",
    "Verif.Err.operator_violated",
    "Verif.Err.text_import_violated",
    "Verif.Err.long_refusal_violated",
    "Verif.Err.long_error_violated",
    "Verif.Err.reports_violated"
   ],
   "note": "Proved for histories whose reports have no % and at most 4094 bytes, in which no library or host exception follows an error that had a file and no text imports a refused file; for System::error the bounds are exact. Violated: messages are used as formats again, up to three times; long ones are cut or overflow a buffer; the file of the error before stays; the place of an import in a text is read before its name."
  },
  {
   "property": "C125",
   "status": "partial",
   "theorems": [
    "Verif.Vm.Bridge.object_is_map_partial",
    "Verif.Vm.Bridge.object_twice_violated",
    "Verif.Vm.Bridge.object_zero_key_violated",
    "Verif.Vm.Bridge.object_is_map_violated"
   ],
   "note": "Proved for keys without zero bytes and for numbers, truth values, texts by characters without backslashes, registered class objects and script objects that no one has yet. Violated: keys end at a zero byte; an object that is already shared is refused."
  },
  {
   "property": "C126",
   "status": "partial",
   "theorems": [
    "Verif.Vm.BindPath.bind_path_exact",
    "Verif.Vm.BindPath.bind_path_sound_partial",
    "Verif.Vm.BindPath.bind_variable_function_partial",
    "Verif.Vm.BindPath.bind_defined",
    "Verif.Vm.BindPath.bind_single_exact",
    "Verif.Vm.BindPath.bind_nested_violated",
    "Verif.Vm.BindPath.bind_field_function_violated",
    "Verif.Vm.BindPath.bind_constant_violated",
    "Verif.Vm.BindPath.binds_what_scripts_call_violated"
   ],
   "note": "Exactly the paths through objects held directly, ending in a non-static function of the class, are bound (bind_path_exact), unless a constant was registered or a state saved right after a script with variables in blocks. Violated: script objects in fields, functions kept in fields, constants registered after variables in blocks."
  },
  {
   "property": "C127",
   "status": "partial",
   "theorems": [
    "Verif.Consts.constants_mean_what_is_written_partial",
    "Verif.Consts.literals_share",
    "Verif.Consts.literal_line",
    "Verif.Consts.field_keyword",
    "Verif.Consts.literal_backslash_violated",
    "Verif.Consts.literal_backslash_takes_more_violated",
    "Verif.Consts.field_backslash_violated",
    "Verif.Consts.literal_long_violated",
    "Verif.Consts.field_empty_violated",
    "Verif.Consts.sum_backslash_violated",
    "Verif.Consts.edit_changes_others_violated",
    "Verif.Consts.means_what_is_written_violated"
   ],
   "note": "Proved for texts that do not end in a backslash, literals below 4096 characters, sums without backslashes, and no editing method called on a literal. Violated in each of these cases: the closing quote after a backslash is passed over, a literal of 4096 characters is read past its buffer, a sum is unescaped again, an edited literal changes all that look like it, field names too."
  },
  {
   "property": "C128",
   "status": "partial",
   "theorems": [
    "Verif.Consts.objects_are_as_written_partial",
    "Verif.Consts.firstOrder_exact",
    "Verif.Consts.objects_are_as_written_violated",
    "Verif.Consts.object_after_edit_violated"
   ],
   "note": "Proved for names that are not empty and do not end in a backslash, with no editing method called on a literal. Violated: {\"a\\\\\": 1} follows a null pointer; after \"a\".append(\"b\") the object {a: 1} has the field ab."
  },
  {
   "property": "C129",
   "status": "partial",
   "theorems": [
    "Verif.Vm.Numbers.integer_parse_partial",
    "Verif.Vm.Numbers.float_parse_partial",
    "Verif.Vm.Numbers.truncInt_iff",
    "Verif.Vm.Numbers.float_max_partial",
    "Verif.Vm.Numbers.integer_minus_violated",
    "Verif.Vm.Numbers.integer_parses_violated",
    "Verif.Vm.Numbers.integer_text_violated",
    "Verif.Vm.Numbers.integer_float_undefined",
    "Verif.Vm.Numbers.integer_defined_violated",
    "Verif.Vm.Numbers.integer_null_violated",
    "Verif.Vm.Numbers.integer_function_violated",
    "Verif.Vm.Numbers.float_parses_violated",
    "Verif.Vm.Numbers.float_null_violated",
    "Verif.Vm.Numbers.float_text_violated",
    "Verif.Vm.Numbers.float_max_violated"
   ],
   "note": "Proved for every history of integers, texts and floats whose integer part fits, with texts capped at the greatest integer and texts without a numeral giving 0. Violated: a minus sign gives 0; floats that do not fit are undefined; null, functions and objects are errors only the first time, later they are taken by the remembered function (0, an address, or a null pointer read); texts beyond single precision."
  },
  {
   "property": "C13",
   "status": "partial",
   "theorems": [
    "Verif.Time.timespan_total_order",
    "Verif.Time.timespan_order_elapsed_partial",
    "Verif.Time.timespan_totals",
    "Verif.Time.timespan_order_violated",
    "Verif.Time.timespan_total_overflow"
   ],
   "note": "Total order for all spans; agreement with elapsed time only for non-negative clock fields."
  },
  {
   "property": "C130",
   "status": "proved",
   "theorems": [
    "Verif.Vm.Numbers.isNumber_exact",
    "Verif.Vm.Numbers.isNumber_object",
    "Verif.Vm.Numbers.integer_max_exact"
   ],
   "note": ""
  },
  {
   "property": "C131",
   "status": "proved",
   "theorems": [
    "Verif.Types.native_function_accepted",
    "Verif.Types.script_function_accepted",
    "Verif.Types.base_accepted"
   ],
   "note": ""
  },
  {
   "property": "C132",
   "status": "proved",
   "theorems": [
    "Verif.Lex.prefix_exact",
    "Verif.Lex.postfix_exact",
    "Verif.Lex.delimiters_exact"
   ],
   "note": ""
  },
  {
   "property": "C133",
   "status": "partial",
   "theorems": [
    "Verif.Json.comments_before_partial",
    "Verif.Json.gap_skipped",
    "Verif.Json.comment_number_violated",
    "Verif.Json.comments_violated"
   ],
   "note": "Proved for everything in front of a value, and for the reader's skipping at every gap. Violated: a comment directly behind a number becomes part of it and the value is undefined."
  },
  {
   "property": "C134",
   "status": "partial",
   "theorems": [
    "Verif.MathFns.math_arguments_partial",
    "Verif.MathFns.math_arity",
    "Verif.MathFns.math_null_violated",
    "Verif.MathFns.math_arguments_violated",
    "Verif.MathFns.math_object_violated"
   ],
   "note": "Proved for numbers, undefined values, booleans and texts, in any mixture. Violated: null, functions and objects of script classes are handed over as if they were addresses of floats and read."
  },
  {
   "property": "C135",
   "status": "partial",
   "theorems": [
    "Verif.MathFns.math_values_partial",
    "Verif.MathFns.math_nan_violated",
    "Verif.MathFns.max_commutes_violated",
    "Verif.MathFns.floor_int_violated"
   ],
   "note": "Proved for all floats but those that are not a number, and for integers of up to 53 bits. Violated: with a value that is not a number max and min give their second argument, so that the order matters; a longer integer is rounded to a float first."
  },
  {
   "property": "C136",
   "status": "partial",
   "theorems": [
    "Verif.MathFns.math_single_partial",
    "Verif.MathFns.pow_one_violated",
    "Verif.MathFns.pow_violated",
    "Verif.MathFns.sin_same_violated"
   ],
   "note": "Proved for arguments and results that are single precision numbers. Violated: the arguments and the result are rounded to single precision, so that pow(16777217.0, 1) differs from 16777217 and sin does not tell it from 16777216, whatever the library does."
  },
  {
   "property": "C137",
   "status": "partial",
   "theorems": [
    "Verif.MathFns.random_range_partial",
    "Verif.MathFns.random_violated"
   ],
   "note": "Proved: at least 0, at most 1, and within 2^-25 of rand() / 2^31; less than 1 exactly if rand() is below 2147483584. Violated: the 64 greatest values of rand() give 1, since they are rounded to single precision."
  },
  {
   "property": "C138",
   "status": "partial",
   "theorems": [
    "Verif.Path.relative_to_file_partial",
    "Verif.Path.all_imported",
    "Verif.Path.root_file_violated",
    "Verif.Path.backslash_violated"
   ],
   "note": "Proved for names without backslashes that are not of the form /name, for any depth of imports. Violated: the directory of a file of the root directory is the empty text, to which the process cannot change, so that it stays where it is; a backslash in a name is taken for a separator."
  },
  {
   "property": "C139",
   "status": "proved",
   "theorems": [
    "Verif.Path.directory_restored"
   ],
   "note": "For every current directory that exists (if its name has 4096 bytes or more the compilation is an error before the directory is changed). File systems without symbolic links that do not change meanwhile."
  },
  {
   "property": "C14",
   "status": "partial",
   "theorems": [
    "Verif.Time.datetime_validation_partial",
    "Verif.Time.datetime_native_exact",
    "Verif.Time.datetime_ampm_exact",
    "Verif.Time.datetime_validation_violated"
   ],
   "note": "Exact for 32-bit arguments; larger script integers are truncated first."
  },
  {
   "property": "C140",
   "status": "partial",
   "theorems": [
    "Verif.Report.assert_passes",
    "Verif.Report.assert_refuses",
    "Verif.Report.assert_message_partial",
    "Verif.Report.assert_silent",
    "Verif.Report.assert_braces_violated",
    "Verif.Report.asserts_violated"
   ],
   "note": "Proved in full: which values pass, and the message for what is not a boolean. The messages of failed assertions for texts in pieces without backslashes, numbers as in C102. Violated: with braces that hold no number and an argument, the result of the failed format is used without a check (null pointer)."
  },
  {
   "property": "C141",
   "status": "partial",
   "theorems": [
    "Verif.Report.writes_partial",
    "Verif.Report.refused_writes_nothing",
    "Verif.Report.no_arguments",
    "Verif.Report.undefined_violated",
    "Verif.Report.writes_violated"
   ],
   "note": "Proved for all calls but those of error and errorln with an undefined first argument, for which nothing (an empty line) is written while out writes Undefined: violated."
  },
  {
   "property": "C142",
   "status": "partial",
   "theorems": [
    "Verif.ClockSpec.clock_starts",
    "Verif.ClockSpec.clock_tells_partial",
    "Verif.ClockSpec.clock_reads_partial",
    "Verif.ClockSpec.clock_answers",
    "Verif.ClockSpec.clock_violated",
    "Verif.ClockSpec.clock_nearest_violated"
   ],
   "note": "Proved as long as nobody sets the system's clock; in any case the call gives the difference of what the system's clock shows. Violated when it is set back (system_clock is not steady): the time runs back. The float is not always the nearest one to the milliseconds divided by 1000 (9 ms)."
  },
  {
   "property": "C143",
   "status": "proved",
   "theorems": [
    "Verif.Vm.NumOrder.less_transitive",
    "Verif.Vm.NumOrder.less_irreflexive",
    "Verif.Vm.NumOrder.less_asymmetric"
   ],
   "note": "In full, also for NaN and integers that are not exact as floats: converting to float is monotone."
  },
  {
   "property": "C144",
   "status": "partial",
   "theorems": [
    "Verif.Vm.NumOrder.le_transitive_partial",
    "Verif.Vm.NumOrder.eq_transitive_partial",
    "Verif.Vm.NumOrder.eq_iff",
    "Verif.Vm.NumOrder.ordered_violated",
    "Verif.Vm.NumOrder.le_transitive_violated"
   ],
   "note": "Violated: 9007199254740993 == 9007199254740992.0 == 9007199254740992, but the two integers differ. Proved unless two integers of which one has more than 53 bits stand on both sides of a float; eq_iff in full."
  },
  {
   "property": "C145",
   "status": "partial",
   "theorems": [
    "Verif.Vm.NumOrder.add_keeps_partial",
    "Verif.Vm.NumOrder.add_integers_partial",
    "Verif.Vm.NumOrder.add_violated",
    "Verif.Vm.NumOrder.add_overflow_violated",
    "Verif.Vm.NumOrder.add_infinity_violated"
   ],
   "note": "Proved for all finite floats and integers of at most 53 bits in any mixture, and for all integers whose sums fit in 64 bits. Violated for longer integers compared with floats, for sums that overflow (undefined behaviour), and for infinities."
  },
  {
   "property": "C146",
   "status": "proved",
   "theorems": [
    "Verif.MathFns.degrees_ordered",
    "Verif.MathFns.degrees_known"
   ],
   "note": "In full, also for infinities and integers of more than 53 bits."
  },
  {
   "property": "C147",
   "status": "partial",
   "theorems": [
    "Verif.MathFns.degrees_radians_partial",
    "Verif.MathFns.degrees_violated",
    "Verif.MathFns.degrees_small_violated"
   ],
   "note": "Proved for 2^-1000 <= |x| <= 2^1000. Violated outside: the product is made before the quotient, so 2^1023 degrees are infinite radians; the least float gives 0."
  },
  {
   "property": "C148",
   "status": "proved",
   "theorems": [
    "Verif.MathFns.sqrt_exact",
    "Verif.MathFns.sqrt_squares",
    "Verif.MathFns.sqrt_ordered",
    "Verif.MathFns.sqrt_refuses",
    "Verif.MathFns.sqrt_accurate"
   ],
   "note": "The C function sqrt is modelled as IEEE 754 requires it, the root rounded to the nearest float."
  },
  {
   "property": "C149",
   "status": "partial",
   "theorems": [
    "Verif.Vm.NumOrder.mul_keeps_partial",
    "Verif.Vm.NumOrder.mul_integers_partial",
    "Verif.Vm.NumOrder.mul_violated",
    "Verif.Vm.NumOrder.mul_overflow_violated",
    "Verif.Vm.NumOrder.mul_infinity_violated"
   ],
   "note": "Proved for all finite floats and integers of at most 53 bits in any mixture whose integer products fit in 64 bits, and for all integers whose products fit, there also for < and for negative factors. Violated for longer integers compared with floats, for products that overflow (undefined behaviour), and for infinity times zero."
  },
  {
   "property": "C15",
   "status": "partial",
   "theorems": [
    "Verif.Time.addMonths_partial",
    "Verif.Time.addMonths_mktime",
    "Verif.Time.addMonths_negative_violated"
   ],
   "note": "Month count always right; month leaves 1..12 for some negative n."
  },
  {
   "property": "C150",
   "status": "partial",
   "theorems": [
    "Verif.Vm.NumOrder.difference_tells_partial",
    "Verif.Vm.NumOrder.difference_violated",
    "Verif.Vm.NumOrder.difference_overflow_violated"
   ],
   "note": "Proved for all integers of any size and all floats that are not infinite, NaN among them, in any mixture, unless the difference of two integers does not fit in 64 bits. Violated for infinity minus infinity and for differences that overflow (undefined behaviour)."
  },
  {
   "property": "C151",
   "status": "partial",
   "theorems": [
    "Verif.Parse.strings_end_partial",
    "Verif.Parse.strings_line_end",
    "Verif.Parse.strings_end_violated",
    "Verif.Parse.backslash_end_rejected"
   ],
   "note": "Violated: only the one character in front of a quote is looked at, so a literal that ends with an escaped backslash is not closed by its quote and x=\"\\\\\"; is refused. Proved for all others."
  },
  {
   "property": "C16",
   "status": "partial",
   "theorems": [
    "Verif.Vm.int_arith_exact_partial",
    "Verif.Vm.int_sum_violated",
    "Verif.Vm.float_arith_exact",
    "Verif.Vm.divide_exact",
    "Verif.Vm.modulo_exact",
    "Verif.Vm.div_mod_no_ub",
    "Verif.Vm.non_numeric_exact",
    "Verif.Vm.bitwise_exact_partial",
    "Verif.Vm.shift_count_violated",
    "Verif.Vm.logic_exact",
    "Verif.Vm.unary_exact_partial",
    "Verif.Vm.bitwise_non_numeric_exact"
   ],
   "note": "Proved for every operand pair; + - * unary minus on integers are undefined on signed overflow and shifts on counts outside 0..63 (violations proved). Floats: an arbitrary FloatOps. The instruction forms with embedded operands are treated under C26."
  },
  {
   "property": "C17",
   "status": "partial",
   "theorems": [
    "Verif.Vm.compare_exact",
    "Verif.Vm.comparison_laws",
    "Verif.Vm.comparison_refl",
    "Verif.Vm.order_self",
    "Verif.Vm.string_equality",
    "Verif.Vm.undefined_null_equality",
    "Verif.Vm.undefined_ne_null",
    "Verif.Vm.incomparable_not_answered",
    "Verif.Vm.const_undefined_violated",
    "Verif.Vm.const_null_nan_violated",
    "Verif.Vm.type_symmetry_violated",
    "Verif.Vm.type_complement_violated",
    "Verif.Vm.type_equality_partial"
   ],
   "note": "Laws for all values of comparable kinds; violated for constants holding undefined/null and for comparisons of a type with a non-type. Class objects with their own metamethods are reported as a call."
  },
  {
   "property": "C18",
   "status": "partial",
   "theorems": [
    "Verif.Vm.compound_assign_violated",
    "Verif.Vm.compound_assign_partial",
    "Verif.Vm.compound_zero_divisor",
    "Verif.Vm.compound_non_numeric_exact",
    "Verif.Vm.array_append_violated"
   ],
   "note": "Violated when an int variable is updated with + - * by a float; proved for all other operand pairs."
  },
  {
   "property": "C19",
   "status": "partial",
   "theorems": [
    "Verif.Vm.array_index_in_range",
    "Verif.Vm.array_index_partial",
    "Verif.Vm.array_index_violated",
    "Verif.Vm.array_float_index_partial",
    "Verif.Vm.array_float_index_violated",
    "Verif.Vm.string_index_violated",
    "Verif.Vm.string_index_partial"
   ],
   "note": "Array accesses that do not fail are always in range. The exact element is proved for indices that fit in 32 bits (larger ones are cut: violation), and for floats in int range. Strings have no bounds check: violation proved; exact inside the text."
  },
  {
   "property": "C20",
   "status": "partial",
   "theorems": [
    "Verif.Vm.array_equal_exact_partial",
    "Verif.Vm.array_equal_symm",
    "Verif.Vm.array_equal_refl_partial",
    "Verif.Vm.array_equal_violated",
    "Verif.Vm.array_equal_refl_violated",
    "Verif.Vm.array_equal_agrees_violated",
    "Verif.Vm.array_contains_exact",
    "Verif.Vm.contains_sound",
    "Verif.Vm.contains_violated"
   ],
   "note": "Exact for numbers, booleans, strings and class objects; symmetric for all. Violations: [undefined]==[0]; arrays holding undefined or containers are not equal to themselves; 0.0/-0.0; contains never finds objects."
  },
  {
   "property": "C21",
   "status": "partial",
   "theorems": [
    "Verif.Vm.array_plus_exact_partial",
    "Verif.Vm.array_extend_exact_partial",
    "Verif.Vm.extend_self_never_ends",
    "Verif.Vm.extend_self_violated",
    "Verif.Vm.array_plus_assign_violated"
   ],
   "note": "a+b and extend append exactly (non-literal elements, below the 2M limit); extend(self) never ends normally; a+=b on arrays is a type confusion."
  },
  {
   "property": "C22",
   "status": "partial",
   "theorems": [
    "Verif.Vm.object_plus_exact_partial",
    "Verif.Vm.object_extend_exact_partial",
    "Verif.SlotsProps.concat_violated",
    "Verif.SlotsProps.self_extend_violated"
   ],
   "note": "Merge exact below the map's size limit and for non-literal values; extend of an object with itself is excluded. With nested objects both are false of the code: the copy shares the slots of the operand, which are freed twice (concat_violated), and extend of an object with itself reads what it has just released (self_extend_violated)."
  },
  {
   "property": "C23",
   "status": "partial",
   "theorems": [
    "Verif.Vm.array_refines_list_partial",
    "Verif.Vm.array_erase_violated",
    "Verif.Vm.array_insert_negative_violated"
   ],
   "note": "All histories with positions in range act as on lists; eraseAt beyond the end and insertAt(-1) are undefined behaviour."
  },
  {
   "property": "C24",
   "status": "proved",
   "theorems": [
    "Verif.Comp.parse_flatten",
    "Verif.Comp.parse_grouped",
    "Verif.Comp.parse_unique",
    "Verif.Comp.weakness_group"
   ],
   "note": "For every sequence of operands and binary operators: the compiled grouping is the unique one that follows the documented table, left-associative inside a line."
  },
  {
   "property": "C25",
   "status": "partial",
   "theorems": [
    "Verif.Comp.fold_transparent_partial",
    "Verif.Comp.fold_reject",
    "Verif.Comp.fold_string_equality",
    "Verif.Comp.fold_int_float_compare_violated",
    "Verif.Comp.fold_int_float_div_violated",
    "Verif.Comp.fold_negative_zero_violated",
    "Verif.Comp.fold_string_order_violated",
    "Verif.Comp.fold_long_text_violated"
   ],
   "note": "Folding equals the run-time operation except: int with float in comparisons, / and %; division by -0.0; ordering of strings that differ by a character below the quote; results of 4096 characters or more (violations proved)."
  },
  {
   "property": "C26",
   "status": "partial",
   "theorems": [
    "Verif.Comp.expression_correct_partial",
    "Verif.Comp.expression_value_partial",
    "Verif.Comp.expression_error_partial",
    "Verif.Comp.flat_expression_correct",
    "Verif.Comp.compSub_accepts",
    "Verif.Comp.vm_const_pair",
    "Verif.Comp.ternary_left_violated",
    "Verif.Comp.ternary_right_violated",
    "Verif.Comp.logic_equal_violated"
   ],
   "note": "Proved for every machine and every expression of any depth except operands that are a parenthesised ternary, && or || next to a constant or local variable, where the peephole optimiser reaches across the join; the full claim (ExprCorrect) is refuted by three programs run on the modelled VM."
  },
  {
   "property": "C27",
   "status": "partial",
   "theorems": [
    "Verif.Comp.statement_correct_partial",
    "Verif.Comp.statement_effects_partial",
    "Verif.Comp.continue_in_block_violated",
    "Verif.Comp.break_without_case_violated",
    "Verif.Comp.switch_condition_dropped_violated",
    "Verif.Comp.switch_leaves_value_violated",
    "Verif.Comp.conditional_call_leaves_value_violated"
   ],
   "note": "For every machine, body, state and number of rounds: code of if/else, while, do, for, for-in, switch, break, continue, return and blocks runs as the structural semantics in StmtSpec.lean. Excluded (SafeStm, CleanStm): break/continue out of a block that declares variables, for without condition but with initialiser, switch without case or without statements, switch without default (only as to values left on the stack), expressions excluded in C26. The full claim StmtCorrect is refuted in each of these cases."
  },
  {
   "property": "C28",
   "status": "partial",
   "theorems": [
    "Verif.Comp.scopes_balanced_partial",
    "Verif.Comp.block_scope_partial",
    "Verif.Comp.scopes_balanced_violated"
   ],
   "note": "Every configuration of every run: scopes are nested, never more than 10, each pop has its push, none open at the end. Excluded: break/continue out of a block that declares variables (refuted for every machine: the scope table overflows), switch without case or statements."
  },
  {
   "property": "C29",
   "status": "partial",
   "theorems": [
    "Verif.Comp.for_init_once_partial",
    "Verif.Comp.for_test_after_init",
    "Verif.Comp.for_without_condition_violated"
   ],
   "note": "For a for with condition (or without initialiser) in any program, any body and expressions. Refuted for a for without condition: the initialiser runs in each round."
  },
  {
   "property": "C30",
   "status": "partial",
   "theorems": [
    "Verif.Comp.stack_need_partial",
    "Verif.Comp.stack_need_violated",
    "Verif.Comp.stack_need_twice_violated",
    "Verif.Comp.weight_covers"
   ],
   "note": "The reservation (linear scan with the weights of instruction_num_required_stack) bounds the operand stack at every point of every run, on all paths, for function bodies in which each statement leaves the stack empty (every switch has a default, expression statements end in an assignment, a step, a call or contain no call at the end). Refuted in full: a switch without default in which nothing matches leaves an element, without bound in a loop. Calls, element and member accesses are one instruction that takes its operands and leaves one value (STACK_CALL and calls of function-valued fields do not behave so, see C68)."
  },
  {
   "property": "C31",
   "status": "partial",
   "theorems": [
    "Verif.Vm.store_pairing",
    "Verif.Vm.multi_assign_partial",
    "Verif.Vm.swap_partial",
    "Verif.Vm.swap_violated",
    "Verif.Vm.ref_swap_violated"
   ],
   "note": "Pairing, padding and dropping proved for all list lengths; the simultaneous semantics proved unless a right side is a string held by a destination or a ref parameter (violations proved). Evaluation of the right sides themselves is C26."
  },
  {
   "property": "C32",
   "status": "partial",
   "theorems": [
    "Verif.Lex.blanks_partial",
    "Verif.Lex.blanks_covers",
    "Verif.Lex.blanks_safe",
    "Verif.Lex.blanks_violated"
   ],
   "note": "blanks_partial for every text in which carriage returns occur only before line feeds (every text splits as required: blanks_covers); blanks_safe (termination, no read outside, lines counted) for every text. Refuted for a lone carriage return."
  },
  {
   "property": "C33",
   "status": "partial",
   "theorems": [
    "Verif.Share.refcount_partial",
    "Verif.Share.unheld_swept_partial",
    "Verif.Share.last_drop_destroys_partial",
    "Verif.Share.destroyed_unheld_partial",
    "Verif.Share.refcount_swap_violated",
    "Verif.Share.refcount_wrap_violated"
   ],
   "note": "Proved for all histories of create/share/unref/attach/detach/clean-up/scope exit below 65536 holders per object in which a waiting object is taken up again only in its home block. Without these limits the property is false in the code (two violations). Cycles through containers are not collected by counting and are not claimed to be."
  },
  {
   "property": "C34",
   "status": "partial",
   "theorems": [
    "Verif.Share.leave_releases_partial",
    "Verif.Share.return_survives_partial",
    "Verif.Share.return_survives_violated"
   ],
   "note": "Scope exit proved for all states reached within the limits of C33. A returned object that is also an element of a local container declared after it is destroyed (violation)."
  },
  {
   "property": "C35",
   "status": "partial",
   "theorems": [
    "Verif.Vm.assign_const_error",
    "Verif.Vm.assign_decl_partial",
    "Verif.Vm.history_exact_partial",
    "Verif.Vm.const_immutable_partial",
    "Verif.Vm.const_update_violated",
    "Verif.Vm.const_function_spreads",
    "Verif.Vm.const_undefined_source_violated"
   ],
   "note": "Proved for every history of plain assignments and const declarations; violated by compound assignment and ++/--, which never look at the constant flag."
  },
  {
   "property": "C36",
   "status": "partial",
   "theorems": [
    "Verif.Vm.bind_partial",
    "Verif.Vm.by_value_partial",
    "Verif.Vm.ref_bind_partial",
    "Verif.Vm.ref_needs_variable",
    "Verif.Vm.by_value_violated",
    "Verif.Vm.const_argument_violated",
    "Verif.Vm.many_args_violated",
    "Verif.Vm.many_args_last_violated",
    "Verif.Vm.ref_forward_violated",
    "Verif.Vm.literal_unescaped_violated",
    "Verif.Vm.ref_missing_violated",
    "Verif.Vm.varargs_empty_violated"
   ],
   "note": "Proved for any function with by-value parameters (and a last variable-argument parameter), any number of arguments below 16 and any values: position, defaults, remaining arguments in order, nothing of the caller changes; assigning a parameter changes no variable of the caller unless a string object is shared; ref parameters stand for the caller's variable in any mixture. Missing: string and expression defaults, ref variable-argument parameters. Refuted in full: strings are shared with the caller, constants stay constant, 16 arguments wrap to 0, forwarded ref parameters arrive as pointers."
  },
  {
   "property": "C37",
   "status": "partial",
   "theorems": [
    "Verif.Vm.multi_return_partial",
    "Verif.Vm.callValues_partial",
    "Verif.Vm.return_values_partial",
    "Verif.Vm.surplus_values",
    "Verif.Vm.multi_return_violated"
   ],
   "note": "Proved for every number of destinations, returned values up to that number, and functions without return. With more values returned than expected the last ones are taken instead of the first (surplus_values, multi_return_violated). return_values_partial: literals without backslash."
  },
  {
   "property": "C38",
   "status": "partial",
   "theorems": [
    "Verif.Vm.Depth.depth_bounded",
    "Verif.Vm.Depth.recursion_cut_off",
    "Verif.Vm.Depth.usable_after_end",
    "Verif.Vm.Depth.frame_table_partial",
    "Verif.Vm.Depth.frame_table_violated"
   ],
   "note": "The depth bound, the cut-off and the usability afterwards are proved in full over all histories; the frame table is respected unless a main function does not fit in the stack (refuted: then frame -1 is popped)."
  },
  {
   "property": "C39",
   "status": "partial",
   "theorems": [
    "Verif.Vm.Native.find_last_match",
    "Verif.Vm.Native.find_error",
    "Verif.Vm.Native.calls_resolve_partial",
    "Verif.Vm.Native.calls_resolve_violated",
    "Verif.Vm.Native.float_chooses_int",
    "Verif.Vm.Native.int_chooses_float",
    "Verif.Vm.Native.chosen_args_pass_partial",
    "Verif.Vm.Native.chosen_args_pass_violated",
    "Verif.Vm.Native.call_refused"
   ],
   "note": "A fresh search finds the last function that takes the arguments, or raises an error, for all registries. The remembered last call breaks this when the kinds of arguments change between calls; the partial theorem covers histories with the same argument kinds."
  },
  {
   "property": "C40",
   "status": "partial",
   "theorems": [
    "Verif.Vm.Native.cast_agrees_partial",
    "Verif.Vm.Native.cast_agrees_violated",
    "Verif.Vm.Native.cast_null_object"
   ],
   "note": "Castability and conversion agree except for integers to floating types, null objects, and floats that do not fit an integer."
  },
  {
   "property": "C41",
   "status": "partial",
   "theorems": [
    "Verif.Vm.Iter.array_loop_each_once",
    "Verif.Vm.Iter.string_loop_each_once",
    "Verif.Vm.Iter.object_loop_each_once",
    "Verif.Vm.Iter.in_char_partial",
    "Verif.Vm.Iter.in_char_violated",
    "Verif.Vm.Iter.in_substring_partial",
    "Verif.Vm.Iter.in_substring_violated",
    "Verif.Vm.Iter.in_array_partial",
    "Verif.Vm.Iter.in_array_violated",
    "Verif.Vm.Iter.in_object_partial",
    "Verif.Vm.Iter.in_object_violated",
    "Verif.Vm.Iter.in_needs_object"
   ],
   "note": "Iteration over arrays, strings and objects is proved in full (every element once, in order, value and key assigned to the right variables, the loop ends). `in` is exact for character codes -128..127 except 0, substrings unless both are empty, array elements that are numbers, booleans or strings, and field names held in a variable; violated outside: `0 in s`, codes beyond a byte, objects in arrays, `1 in o` pushes nothing, an object that is no string is read as one. Iterators and `_in` written in script are not modelled."
  },
  {
   "property": "C42",
   "status": "partial",
   "theorems": [
    "Verif.Types.inheritance_decided_partial",
    "Verif.Types.inheritance_decided_violated",
    "Verif.Types.inheritance_partial_order_partial",
    "Verif.Types.inheritance_stable_partial",
    "Verif.Types.extends_adds_exactly",
    "Verif.Vm.Native.instanceof_partial",
    "Verif.Vm.Native.instanceof_violated"
   ],
   "note": "For all histories in which no class extends itself. `instanceof` is right for variables, wrong for objects read from containers."
  },
  {
   "property": "C43",
   "status": "partial",
   "theorems": [
    "Verif.Types.lookup_nearest_partial",
    "Verif.Types.lookup_nearest_violated",
    "Verif.Types.lookup_native_order_violated",
    "Verif.Types.super_nearest_partial",
    "Verif.Types.this_call_partial",
    "Verif.Types.this_call_violated",
    "Verif.Types.call_site_partial",
    "Verif.Types.call_site_violated"
   ],
   "note": "For all orderly histories (bases are complete before heirs are declared); the call-site cache only for objects of one class."
  },
  {
   "property": "C44",
   "status": "partial",
   "theorems": [
    "Verif.Core.Scope.lookup_innermost",
    "Verif.Core.Scope.lookup_expected_partial",
    "Verif.Core.Scope.lexical_lookup_violated",
    "Verif.Core.Scope.scope_names_distinct",
    "Verif.Core.Scope.block_invisible",
    "Verif.Core.Scope.function_invisible",
    "Verif.Core.Scope.accepts_iff",
    "Verif.Core.Scope.no_hiding",
    "Verif.Core.Scope.declare_iff_free_violated",
    "Verif.Core.Scope.declare_iff_free_partial",
    "Verif.Core.Scope.compiles_defined_violated",
    "Verif.Core.Scope.compiles_defined_partial",
    "Verif.Core.Scope.freed_no_variable",
    "Verif.Core.Scope.resolved_kept_violated"
   ],
   "note": "For every script prefix the compiler gets through: a name stands for the innermost declaration of the same function, else for the global; no scope holds two symbols of one name; blocks and function bodies leave outer lookups unchanged; exact conditions for acceptance, refusal and undefined behaviour. Violated as stated: a nested function does not see the locals of the function around it (it gets the global), a closed block forbids its names at the top level of the function, a function named like something visible is undefined behaviour, the symbol of a function declared in a variable-less block is deleted before the script runs. Class members, natives, import and the nesting limit are outside this model."
  },
  {
   "property": "C45",
   "status": "partial",
   "theorems": [
    "Verif.Core.Checkpoint.clear_restores_partial",
    "Verif.Core.Checkpoint.clear_restores_violated",
    "Verif.Core.Checkpoint.clear_member_violated",
    "Verif.Core.Checkpoint.clear_safe_violated",
    "Verif.Core.Checkpoint.clear_relinks_violated",
    "Verif.Core.Globals.clear_restores_globals_partial",
    "Verif.Core.Globals.clear_restores_globals_violated"
   ],
   "note": "full statements ClearRestores, ClearSafe, ClearRelinks, ClearRestoresGlobals are false of the code; restored when saved functions and types are left alone and every call was bound; scopes not modelled"
  },
  {
   "property": "C46",
   "status": "partial",
   "theorems": [
    "Verif.Vm.typeof_exact",
    "Verif.Vm.typeof_const_partial",
    "Verif.Vm.typeof_const_violated",
    "Verif.Vm.typeof_reference",
    "Verif.Vm.typeof_slot",
    "Verif.Vm.typeof_distinguishes",
    "Verif.Vm.unwrap_exact",
    "Verif.Vm.assign_exact_partial"
   ],
   "note": "typeof proved exact for every value, reference and slot; violated for constants holding undefined/null; assignment preserves the kind except out of such constants."
  },
  {
   "property": "C47",
   "status": "partial",
   "theorems": [
    "Verif.Json.roundtrip_value_partial",
    "Verif.Json.roundtrip_general",
    "Verif.Json.roundtrip_partial",
    "Verif.Json.roundtrip_null_violated",
    "Verif.Json.roundtrip_int_violated",
    "Verif.Json.roundtrip_float_violated",
    "Verif.Json.roundtrip_string_violated"
   ],
   "note": "For values whose strings need no escape the result of reading the written text is characterised exactly, and is the value itself if it has no null, no integer and only floats that survive printing. The full property is refuted: null, integers, 0.1 and a string with a quote."
  },
  {
   "property": "C48",
   "status": "partial",
   "theorems": [
    "Verif.Json.text_is_json_partial",
    "Verif.Json.text_is_json_violated",
    "Verif.Json.text_comma_violated",
    "Verif.Json.text_function_violated",
    "Verif.Json.num_float",
    "Verif.Json.num_int"
   ],
   "note": "The text is a sentence of an inductive JSON grammar, with the value meant, formatted or not, for values whose strings need no escape. Refuted in full by the string with a quote; also by class objects with added fields and functions in arrays."
  },
  {
   "property": "C49",
   "status": "partial",
   "theorems": [
    "Verif.Json.serialize_ends_iff",
    "Verif.Json.terminates_partial",
    "Verif.Json.graph_text",
    "Verif.Json.graph_text_other",
    "Verif.Json.terminates_violated",
    "Verif.Json.terminates_objects_violated",
    "Verif.Json.self_text"
   ],
   "note": "Exact characterisation: serialising ends iff there is no endless walk that avoids the object one began with. Refuted in full by an array that contains itself and by two objects inside a third. Stack exhaustion on deep finite graphs is not modelled."
  },
  {
   "property": "C50",
   "status": "partial",
   "theorems": [
    "Verif.Share.makeShared_refuses_partial",
    "Verif.Share.makeShared_never",
    "Verif.Share.makeShared_violated"
   ],
   "note": "The condition in makeObjectShared is inverted: the call never succeeds. Only the refusal of an already shared object holds."
  },
  {
   "property": "C51",
   "status": "partial",
   "theorems": [
    "Verif.Str.edits_exact_partial",
    "Verif.Str.concat_exact",
    "Verif.Str.string_eq_exact",
    "Verif.Str.string_at_exact",
    "Verif.Str.string_set_exact",
    "Verif.Str.substring_to_end_exact",
    "Verif.Str.findLastOf_exact",
    "Verif.Str.eraseAt_negative_violated",
    "Verif.Str.insertAt_negative_violated",
    "Verif.Str.insertAt_end_violated",
    "Verif.Str.append_cleared_violated",
    "Verif.Str.findLastOf_empty_violated"
   ],
   "note": "Negative indices are undefined behaviour, insertion at the end is refused, appending a cleared string throws; findLastOf reads before an empty string."
  },
  {
   "property": "C52",
   "status": "partial",
   "theorems": [
    "Verif.Time.datetime_order_chronological",
    "Verif.Time.datetime_difference_partial",
    "Verif.Time.datetime_difference_violated",
    "Verif.Time.datetime_difference_negative_violated"
   ],
   "note": "Order proved for all valid dates (UTC); the difference is wrong when the clock times are in the other order than the dates."
  },
  {
   "property": "C53",
   "status": "partial",
   "theorems": [
    "Verif.Str.literal_escapes_partial",
    "Verif.Str.unknown_escape_dropped_violated"
   ],
   "note": "Every value written with the documented escapes is read back; an unknown escape deletes two characters. A literal that ends with an escaped backslash is not found by the parser, see C151."
  },
  {
   "property": "C54",
   "status": "partial",
   "theorems": [
    "Verif.Vm.inc_dec_int_partial",
    "Verif.Vm.inc_dec_float",
    "Verif.Vm.increment_violated",
    "Verif.Vm.inc_dec_error"
   ],
   "note": "Undefined behaviour at the extreme integers (violation proved); exact otherwise."
  },
  {
   "property": "C55",
   "status": "partial",
   "theorems": [
    "Verif.Lex.operator_longest",
    "Verif.Lex.operator_word",
    "Verif.Lex.operator_total",
    "Verif.Lex.operator_tab_violated",
    "Verif.Lex.spellings"
   ],
   "note": "Symbol operators in full. Word operators: recognised exactly before a space, carriage return or line feed; refuted for a tab."
  },
  {
   "property": "C56",
   "status": "partial",
   "theorems": [
    "Verif.Lex.keyword_partial",
    "Verif.Lex.keyword_safe",
    "Verif.Lex.identifier_exact",
    "Verif.Lex.keyword_violated",
    "Verif.Lex.spellings"
   ],
   "note": "Names in full; keywords: recognised ones are whole words, and whole words followed by the listed delimiters are recognised. Refuted for other followers such as return-1."
  },
  {
   "property": "C57",
   "status": "proved",
   "theorems": [
    "Verif.Lex.numeral_exact",
    "Verif.Lex.numeral_total",
    "Verif.Lex.numeral_unique"
   ],
   "note": "For the grammar Numeral (LexNumber.lean), which admits a lone dot and demands a fraction digit before an exponent. Character literals are not modelled."
  },
  {
   "property": "C58",
   "status": "partial",
   "theorems": [
    "Verif.Vm.Depth.stack_bounds_partial",
    "Verif.Vm.Depth.stack_defaults_violated",
    "Verif.Vm.Depth.stack_refused_violated"
   ],
   "note": "Proved over all histories when each function stays within its reserve (C30), default arguments lie within the caller's reserve and the called function's variables within the stack. Neither of the last two is checked by the program (refuted)."
  },
  {
   "property": "C59",
   "status": "partial",
   "theorems": [
    "Verif.Types.failed_registration_partial",
    "Verif.Types.failed_registration_violated",
    "Verif.Types.failed_class_blocks_name"
   ],
   "note": "All failing registrations but a class with an unusable base, which leaves a half-registered class."
  },
  {
   "property": "C60",
   "status": "proved",
   "theorems": [
    "Verif.Vm.Iter.array_loop_visits",
    "Verif.Vm.Iter.string_loop_visits",
    "Verif.Vm.Iter.visits_unique",
    "Verif.Vm.Iter.visits_positions",
    "Verif.Vm.Iter.array_loop_growing_never_ends"
   ],
   "note": "Both directions, for every body: the loop ends exactly if the positional description has a run and then does what it says. One or two loop variables."
  },
  {
   "property": "C61",
   "status": "partial",
   "theorems": [
    "Verif.Vm.Iter.object_loop_visits_partial",
    "Verif.Vm.Iter.object_loop_violated",
    "Verif.Vm.Iter.object_loop_erase_current_violated"
   ],
   "note": "Proved for bodies that do not remove the field of their own round; removing it makes the iterator read a freed node (violated)."
  },
  {
   "property": "C62",
   "status": "proved",
   "theorems": [
    "Verif.Core.Globals.globals_keep_values",
    "Verif.Core.Globals.globals_keep_slots",
    "Verif.Core.Globals.operands_translated"
   ],
   "note": "all sequences of scripts, any nesting of blocks"
  },
  {
   "property": "C63",
   "status": "partial",
   "theorems": [
    "Verif.Core.Globals.globals_keep_values_partial",
    "Verif.Core.Globals.globals_keep_values_violated",
    "Verif.Core.Globals.constant_aliased_violated",
    "Verif.Core.Globals.constant_overflow_violated",
    "Verif.Core.Globals.class_constants_violated",
    "Verif.Core.Globals.class_constants_partial"
   ],
   "note": "full statement GlobalsKeepValues / ClassConstantsFound is false of the code; proved for calm histories (constants registered before any script)"
  },
  {
   "property": "C64",
   "status": "partial",
   "theorems": [
    "Verif.Json.deserialize_ends",
    "Verif.Json.defined_partial",
    "Verif.Json.defined_violated",
    "Verif.Json.defined_comment_violated",
    "Verif.Json.defined_line_comment_violated",
    "Verif.Json.defined_number_violated"
   ],
   "note": "Ends on every text (proved in full). Defined for texts without slash and without runs of more than 1023 bytes between end characters; refuted by an open comment, by a number followed by // at the end, and by every number of 1024 digits or more. Recursion depth of the C++ stack is not modelled."
  },
  {
   "property": "C65",
   "status": "partial",
   "theorems": [
    "Verif.Json.accepts_partial",
    "Verif.Json.accepts_violated",
    "Verif.Json.accepts_cr_violated",
    "Verif.Json.accepts_more_violated"
   ],
   "note": "Every text of the grammar without backslash, carriage return and overlong numbers is accepted with its value (null read as undefined, numbers as floats). Refuted by an escaped newline and a carriage return before a blank. The grammar leaves out \\u escapes."
  },
  {
   "property": "C66",
   "status": "partial",
   "theorems": [
    "Verif.FloatText.toText_value",
    "Verif.FloatText.roundtrip_partial",
    "Verif.FloatText.roundtrip_integers_partial",
    "Verif.FloatText.roundtrip_violated",
    "Verif.FloatText.roundtrip_small_violated",
    "Verif.FloatText.roundtrip_large_violated"
   ],
   "note": "The printed text is correct to half a unit of the sixth decimal for every finite float. Floats that are binary32 numbers with at most six decimals come back, so do all integers up to 2^24; refuted for 0.1, 1e-7, 1e39 because parsing goes through strtof. sprintf and strtof are taken at their contract."
  },
  {
   "property": "C67",
   "status": "partial",
   "theorems": [
    "Verif.FloatText.literal_exact_partial",
    "Verif.FloatText.parse_exact",
    "Verif.FloatText.strtof_decimal",
    "Verif.FloatText.literal_nearest_violated",
    "Verif.FloatText.literal_range_violated",
    "Verif.FloatText.literal_finite",
    "Verif.FloatText.trailing_refused",
    "Verif.FloatText.parse_blanks",
    "Verif.FloatText.parse_hexadecimal_exact",
    "Verif.FloatText.parse_infinity",
    "Verif.FloatText.parse_nan"
   ],
   "note": "A literal whose value is a binary32 number stands for exactly that value. Refuted in full: 0.1 stands for the nearest float, not the nearest double, and 1e39 is refused."
  },
  {
   "property": "C68",
   "status": "partial",
   "theorems": [
    "Verif.Comp.Acc.accesses_partial",
    "Verif.Comp.Acc.stack_call_violated",
    "Verif.Comp.Acc.field_call_violated",
    "Verif.Comp.Acc.argument_order_violated",
    "Verif.Comp.Acc.super_chain_violated",
    "Verif.Comp.Acc.stack_call_keeps_function",
    "Verif.Comp.Acc.field_call_takes_operand",
    "Verif.Comp.Acc.argument_read_late"
   ],
   "note": "Proved for every expression in which calls are of names, of methods, of this or one of super, with fewer than 16 arguments and a bare variable argument followed only by variables and literals, in every world where no called member is a variable holding a function. Outside these the code is wrong, and each case has a witness and a statement for all worlds: calling an element or a result leaves the function on the operand stack, calling a member variable takes one operand too many, a bare variable argument is read at the call, a second call after super(..) becomes a super call."
  },
  {
   "property": "C69",
   "status": "partial",
   "theorems": [
    "Verif.Meta.binary_operator_partial",
    "Verif.Meta.unary_operator",
    "Verif.Meta.operands_only_partial",
    "Verif.Meta.operator_refused",
    "Verif.Meta.compound_operator_partial",
    "Verif.Meta.step_operator_partial",
    "Verif.Meta.set_operator_partial",
    "Verif.Meta.operator_names",
    "Verif.Meta.inherited_not_used",
    "Verif.Meta.redefinition_refused",
    "Verif.Meta.binary_operator_violated",
    "Verif.Meta.compound_operator_violated",
    "Verif.Meta.step_operator_violated",
    "Verif.Meta.set_operator_violated",
    "Verif.Meta.redefinition_violated",
    "Verif.Meta.operands_only_violated"
   ],
   "note": "Two-operand operators: exactly the value of the nearest definition in the class of the first object operand (iff), unary operators and in likewise. Assignment operators, ++/-- and _set: only when the class itself defines them. Violated by the code: an operator defined only by the second object's class; inherited assignment operators, ++, -- (error) and _set (object replaced); redefinition of an inherited static operator (refused); a third parameter reads stale stack. Native classes are not covered. A literal string as operand of an operator of a class throws out of the run (C107 literal_operand_violated)."
  },
  {
   "property": "C70",
   "status": "partial",
   "theorems": [
    "Verif.Meta.property_read_partial",
    "Verif.Meta.property_write",
    "Verif.Meta.property_compound_partial",
    "Verif.Meta.property_bump_partial",
    "Verif.Meta.property_read_locals",
    "Verif.Meta.property_read_stale",
    "Verif.Meta.property_read_violated",
    "Verif.Meta.property_compound_violated",
    "Verif.Meta.property_bump_violated"
   ],
   "note": "Reads and compound assignments proved for getters without local variables; a getter with a local variable always reads undefined, one without return reads stale stack, and so does a ++ or -- function without return (all proved). Native properties are not covered."
  },
  {
   "property": "C71",
   "status": "proved",
   "theorems": [
    "Verif.Core.Scope.lookup_innermost",
    "Verif.Core.Scope.scope_names_distinct",
    "Verif.Core.Scope.block_invisible",
    "Verif.Core.Scope.function_invisible",
    "Verif.Core.Scope.no_hiding"
   ],
   "note": "The part of C44 that holds in full."
  },
  {
   "property": "C72",
   "status": "proved",
   "theorems": [
    "Verif.Json.deserialize_ends"
   ],
   "note": "The part of C64 that holds in full. Whether the end is a value, an error or undefined behaviour is C64. Depth of the C++ recursion is not modelled."
  },
  {
   "property": "C73",
   "status": "proved",
   "theorems": [
    "Verif.Time.timespan_total_order"
   ],
   "note": "The part of C13 that holds in full."
  },
  {
   "property": "C74",
   "status": "proved",
   "theorems": [
    "Verif.Time.datetime_order_chronological"
   ],
   "note": "The part of C52 that holds in full. UTC; time_t has 64 bits."
  },
  {
   "property": "C75",
   "status": "proved",
   "theorems": [
    "Verif.Vm.Depth.depth_bounded",
    "Verif.Vm.Depth.recursion_cut_off",
    "Verif.Vm.Depth.usable_after_end"
   ],
   "note": "The part of C38 that holds in full. Errors are those that the machine reports itself; exceptions thrown by instructions are in C113 (thrown_violated)."
  },
  {
   "property": "C76",
   "status": "proved",
   "theorems": [
    "Verif.Vm.Iter.array_loop_each_once",
    "Verif.Vm.Iter.string_loop_each_once",
    "Verif.Vm.Iter.object_loop_each_once"
   ],
   "note": "The part of C41 about iteration."
  },
  {
   "property": "C77",
   "status": "proved",
   "theorems": [
    "Verif.Lex.identifier_exact",
    "Verif.Lex.operator_longest",
    "Verif.Lex.operator_total"
   ],
   "note": "The parts of C55 and C56 that hold in full."
  },
  {
   "property": "C78",
   "status": "proved",
   "theorems": [
    "Verif.Lex.blanks_safe"
   ],
   "note": "The part of C32 that holds for every text."
  },
  {
   "property": "C79",
   "status": "proved",
   "theorems": [
    "Verif.Vm.array_index_in_range"
   ],
   "note": "The part of C19 that holds in full."
  },
  {
   "property": "C80",
   "status": "proved",
   "theorems": [
    "Verif.Vm.divide_exact",
    "Verif.Vm.modulo_exact",
    "Verif.Vm.div_mod_no_ub"
   ],
   "note": "The part of C16 that holds in full; floats are an arbitrary FloatOps."
  },
  {
   "property": "C81",
   "status": "proved",
   "theorems": [
    "Verif.Str.startsWith_exact",
    "Verif.Str.endsWith_exact",
    "Verif.Str.string_eq_exact",
    "Verif.Str.concat_exact"
   ],
   "note": "Native String; the parts of C09 and C51 that hold in full."
  },
  {
   "property": "C82",
   "status": "proved",
   "theorems": [
    "Verif.Str.split_char_inverts_join",
    "Verif.Str.split_string_inverts_join"
   ],
   "note": "The part of C06 about String::split (the script method un-escapes the pieces)."
  },
  {
   "property": "C83",
   "status": "proved",
   "theorems": [
    "Verif.Vm.Native.find_last_match",
    "Verif.Vm.Native.find_error",
    "Verif.Vm.Native.call_refused"
   ],
   "note": "The part of C39 about a fresh search (first execution of a call)."
  },
  {
   "property": "C84",
   "status": "proved",
   "theorems": [
    "Verif.Integer.parse_decimal",
    "Verif.Integer.parse_hexadecimal",
    "Verif.Integer.parse_binary"
   ],
   "note": "The part of C12 about literals of the grammar."
  },
  {
   "property": "C85",
   "status": "proved",
   "theorems": [
    "Verif.FloatText.toText_value"
   ],
   "note": "The part of C66 that holds in full; sprintf(\"%f\") modelled by exact arithmetic."
  },
  {
   "property": "C86",
   "status": "proved",
   "theorems": [
    "Verif.Vm.compare_exact",
    "Verif.Vm.comparison_laws"
   ],
   "note": "The part of C17 about comparable values."
  },
  {
   "property": "C87",
   "status": "proved",
   "theorems": [
    "Verif.FloatText.literal_finite",
    "Verif.FloatText.trailing_refused"
   ],
   "note": "The part of C67 that holds in full."
  },
  {
   "property": "C88",
   "status": "proved",
   "theorems": [
    "Verif.Meta.unary_operator"
   ],
   "note": "The part of C69 that holds in full; native classes not covered."
  },
  {
   "property": "C89",
   "status": "proved",
   "theorems": [
    "Verif.Meta.property_write"
   ],
   "note": "The part of C70 that holds in full; native properties not covered."
  },
  {
   "property": "C90",
   "status": "proved",
   "theorems": [
    "Verif.Parse.compile_ends",
    "Verif.Parse.compile_unique"
   ],
   "note": "The whole recursive descent is modelled; what it asks about names and types is answered by an arbitrary environment with state. Depth of the C++ recursion and the compilation of imported files (one question to the environment) are not modelled."
  },
  {
   "property": "C91",
   "status": "partial",
   "theorems": [
    "Verif.Parse.never_behind_partial",
    "Verif.Parse.never_behind_violated",
    "Verif.Parse.open_parameters_ub",
    "Verif.Parse.lone_minus_ub",
    "Verif.Parse.for_semicolon_ub",
    "Verif.Parse.class_no_name_ub",
    "Verif.Parse.const_member_ub",
    "Verif.Parse.one_semicolon_ub"
   ],
   "note": "False for the code: 'function f(', '-', 'for(;', 'class ', 'const A::x;' are read behind their end or through a null pointer. Proved for texts of less than 1024 characters that end with a line ';;', close their block comments and contain no double quote, 'class' or 'const'."
  },
  {
   "property": "C92",
   "status": "partial",
   "theorems": [
    "Verif.Parse.accepted_read_partial",
    "Verif.Parse.accepted_read_violated",
    "Verif.Parse.static_silent",
    "Verif.Parse.static_silent_rest",
    "Verif.Parse.class_silent",
    "Verif.Parse.return_silent"
   ],
   "note": "False for the code: everything from 'static(' on is ignored without an error, and likewise from 'function' followed by a lone carriage return, a blank and a parenthesis, or from a method without a name. Proved for texts without 'static' and 'class' whose carriage returns are followed by line feeds."
  },
  {
   "property": "C93",
   "status": "partial",
   "theorems": [
    "Verif.New.new_constructs_partial",
    "Verif.New.new_by_value_partial",
    "Verif.New.new_constructs_violated",
    "Verif.New.late_constructor_skipped",
    "Verif.New.sixteen_arguments",
    "Verif.New.dotted_name_ignored",
    "Verif.New.self_base_ub"
   ],
   "note": "False for the code: the constructor is looked up when the new is compiled, so a method that stands before the constructor in the class makes objects without calling it (late_constructor_skipped); new o.A() ignores o (dotted_name_ignored); with sixteen arguments the value is an argument (sixteen_arguments). Proved for up to 15 arguments whenever no constructor is declared after the new, and for new v() with a class held by a variable without that restriction (new_by_value_partial). Native classes and constructors are not modelled."
  },
  {
   "property": "C94",
   "status": "partial",
   "theorems": [
    "Verif.SlotsProps.safe_partial",
    "Verif.SlotsProps.reachable_exists",
    "Verif.SlotsProps.safe_violated",
    "Verif.SlotsProps.advance_violated",
    "Verif.SlotsProps.concat_violated",
    "Verif.SlotsProps.self_extend_violated",
    "Verif.SlotsProps.bracket_violated"
   ],
   "note": "False for the code: list.next = list.next.next frees the object before it is assigned; a+b and a.extend(a) duplicate the slots of nested objects, which are then freed twice; a[k]={} over a nested object loses a slot. Proved for every history of the statements Heap.Fine allows (SlotsSpec): an object assigned to an element is new or reached without that element, copies are of objects without nested objects, brackets do not overwrite nested objects. Objects of plain script literals; native and class objects are not in this model."
  },
  {
   "property": "C95",
   "status": "partial",
   "theorems": [
    "Verif.SlotsProps.faithful_partial",
    "Verif.SlotsProps.faithful_violated"
   ],
   "note": "False for the code by the histories of C94. Proved against a heap without memory management (SlotsSpec) for every history of the statements Heap.Fine allows."
  },
  {
   "property": "C96",
   "status": "partial",
   "theorems": [
    "Verif.SlotsProps.clears_partial",
    "Verif.SlotsProps.clears_violated",
    "Verif.SlotsProps.clear_cuts_violated",
    "Verif.SlotsProps.clear_leak_violated",
    "Verif.SlotsProps.bracket_violated"
   ],
   "note": "False for the code: elements of the saved state that refer to objects no variable refers to become undefined; an object that refers to itself is not freed; after a bracket assignment over a nested object clear is undefined behaviour. Proved after every fine history: clear ends well, variables of the saved state are kept, and so are elements without memory and elements that refer to objects some variable refers to."
  },
  {
   "property": "C97",
   "status": "partial",
   "theorems": [
    "Verif.SlotsProps.frees_partial",
    "Verif.SlotsProps.clear_frees_partial",
    "Verif.SlotsProps.frees_violated",
    "Verif.SlotsProps.self_push_violated",
    "Verif.SlotsProps.bracket_violated"
   ],
   "note": "Violated: an object pushed into itself and erased from itself keeps a share for ever (self_push_violated), and an assignment between brackets over a nested object loses a slot (bracket_violated). Proved for histories of fine statements in which no object is pushed into itself: what exists is what variables lead to, or is held by an object that contains itself; with no such object exactly the former. The same for clear of everything. Missing: histories with the statements excluded, and garbage collection of cycles, which the code does not have."
  },
  {
   "property": "C98",
   "status": "partial",
   "theorems": [
    "Verif.HostProps.lifetime_partial",
    "Verif.HostProps.lifetime_violated",
    "Verif.HostProps.pass_back_violated",
    "Verif.HostProps.pass_store_violated",
    "Verif.HostProps.pass_return_violated",
    "Verif.HostProps.second_value_violated",
    "Verif.HostProps.return_global_violated",
    "Verif.HostProps.delete_violated"
   ],
   "note": "Violated by the code in six ways, each with a witness. Proved for all histories in which arguments are objects global variables refer to, at most one value is returned and it is not the name of a global variable with an object, and delete is not used on the last variable of an object; script errors may happen anywhere. Objects are empty, functions have one block and call nothing, and get as many arguments as they have parameters."
  },
  {
   "property": "C99",
   "status": "partial",
   "theorems": [
    "Verif.ImportProps.imports_partial",
    "Verif.ImportProps.right_unique",
    "Verif.ImportProps.each_once",
    "Verif.ImportProps.one_directory",
    "Verif.ImportProps.imports_violated",
    "Verif.ImportProps.refused_var_violated",
    "Verif.ImportProps.refused_import_violated",
    "Verif.ImportProps.missing_file_violated",
    "Verif.ImportProps.corrected_file_violated",
    "Verif.ImportProps.run_refused_violated",
    "Verif.ImportProps.file_again_violated",
    "Verif.ImportProps.two_names_violated",
    "Verif.ImportProps.cycle_violated",
    "Verif.ImportProps.same_name_violated"
   ],
   "note": "Proved (imports_partial) for histories in which names are written in the same way exactly if they mean the same file (one_directory: for example all files in one directory), texts are accepted or refused before they declare or import anything, files given to the engine exist, are new and accepted, and run() does not follow a refused text; the specification determines what the host sees (right_unique), and an accepted script runs the statements of each file it leads to exactly once (each_once). Violated otherwise: a refused script leaves variables and imports behind and its first statements in the main function; files are known by how their names are written, so a file can be taken in twice or not at all."
  }
 ]
}