STATUS = {
"C01": ("proved", "Order laws, TypeError condition and total_ordering operators, for all selectors."),
"C02": ("partial", "The promise is false (C02_violated). C02_roundtrip_iff says exactly for which selectors it holds: all but those with a negative index, an empty key, a key containing ']  or an identifier followed by a newline."),
"C17": ("partial", "False of the empty MultiFieldSelector (C17_violated); proved for every other one with representable components."),
"C11": ("partial", "The full statement is false of the code (C11_violated): falsy invalid components are accepted. Proved for everything else."),
"C12": ("proved", "Monoid, slicing and startswith laws."),
"C13": ("proved", "For any iteration order of the internal sets."),
"C14": ("partial", "Proved for selector/tuple subscripts. For a single component the docstring is violated when the level has a wildcard (C14_comp_violated)."),
"C15": ("proved", "repr text itself is not modelled, only the selectors it prints."),
"C16": ("proved", ""),
"C21": ("proved", "Invariant over all histories, including reads that run default methods which themselves use the record."),
"C22": ("proved", ""),
"C23": ("proved", "Between top-level operations; within one read a re-entrant default can still assign the slot twice."),
"C24": ("proved", "Between top-level operations. The constructor part is for eager defaults that do not look at the record."),
"C25": ("proved", ""),
"C26": ("proved", "For eager defaults that do not take self, as stated in the property."),
"C30": ("partial", "False of the code for an unset property (C30_violated: KeyError). Proved for set properties, required ones, and all other values."),
"C31": ("proved", "The instance dict transfer; pickle's own byte format is a parameter (copy)."),
"C03": ("proved", ""),
"C04": ("proved", "What the slot's conversion makes of the value is the assign/coerceItem of the class, linked to the property model by access_set_is_slots."),
"C05": ("proved", "Also when put raises."),
"C06": ("proved", ""),
"C07": ("partial", "False of the code (C07_violated): a missing dict key raises KeyError. C07_get_or_none says exactly what happens; C07_never_raises_partial covers paths that do not look up missing dict keys or index the wrong kind of object."),
"C08": ("proved", ""),
"C09": ("partial", "First two parts proved. The last is false when a dict collection lacks a key before the last-but-one component (C09_violated); proved otherwise (C09_post_found_partial)."),
"C10": ("proved", "An unset V1Property reads as a value, so it is excluded from the first part."),
"C60": ("proved", "With the exact contents of every item."),
"C61": ("proved", ""),
"C62": ("proved", ""),
"C18": ("partial", "False of the code (C18_violated): picked list items move. Proved where items picked by index are the first ones, no attribute is None and constructors add nothing."),
"C19": ("partial", "First part proved for every object. Second part is false of the code (C19_violated: list items; C19_half_done: a required property); proved for fields that are attributes or keys and may be removed."),
"C20": ("partial", "False of the code (C20_violated): an item missing from a dict collection. Proved for wildcard-free selectors when no dict key is created on the way."),
"C27": ("proved", "Over well-formed object graphs; user-defined == of plain values obeys the laws. Where a plain list meets a typed collection the coercion makes == non-transitive, so transitivity is for values that do not mix the two."),
"C28": ("partial", "False of the code: dict collections filled in a different order (C28_violated), and objects identified through a declared type (C28_violated_by_declared_type). Proved for equal objects of the same shape."),
"C29": ("partial", "Determination and order proved. Exactness is false for union types (C29_violated); proved for the rest."),
"C32": ("proved", "Including nested subtypes and coercion."),
"C33": ("proved", "Invariant over all histories of constructor and method calls, raising ones included."),
"C34": ("partial", "False of the code for insert (C34_violated), pop before the start (C34_violated_pop), index with a bound past the end (C34_violated_index) and coll.extend(coll), which never ends (C34_extend_self_violated). Proved for every other call and over histories; the list operations these are compared with are shown to follow python's description of slices (C34_slice_…)."),
"C35": ("partial", "Method calls proved. Construction from another DictCollection loses the items (C35_violated); proved from mappings, and from sequences (C35_construction_seq)."),
"C36": ("proved", ""),
"C37": ("proved", "Also across processes. An instance of a subclass of a generated class comes back as the generated class (C37_subclass_lost)."),
"C38": ("proved", "Any options and sub-classed methods for which items_equal(x, x) is not false (C38_self); all real objects with the default methods and reflexive == (C38_default). Functions given as compare_as may change values without parts (CompareFlat)."),
"C39": ("proved", "Any nesting, with C39_record the literal form for records. Stated without compare_filter and duck_type, and without recurse (for which see C130); with fuzzy matching on, for identities determined by the compared content (IdSound). Functions given as compare_as may change values without parts (CompareFlat)."),
"C43": ("proved", "Stated for duck_type off. Functions given as compare_as may change values without parts (CompareFlat)."),
"C44": ("proved", ""),
"C41": ("partial", "False of the code (C41_violated): dict members are matched by identity, not by key. Proved where no identity is shared across different keys (C41_partial); with recurse a common key contributes its members' differences (C41_recurse)."),
"C42": ("proved", "C42_simple covers lists, tuples, sets and dicts of plain values; C42_records collections of records without fuzzy matching (with it, see C47)."),
"C46": ("partial", "False of the code: a property unset on both sides yields nothing (C46_violated), and a matched item can yield both (C46_violated_items). C46_partial says exactly what every compared property yields."),
"C47": ("proved", "Any comparison of one type or of types given by the default methods; the score is the share of equal identity parts. Functions given as compare_as may change values without parts (CompareFlat)."),
"C40": ("proved", "Stated without compare_filter and duck_type, for runs that complete on both sides and a symmetric ==. With duck_type it is false (C40_duck_type_asymmetric). Functions given as compare_as may change values without parts (CompareFlat)."),
"C45": ("partial", "False of the code for items of plain lists and dicts (C45_violated). C45_partial: entries are touched by the filter, or items of a simple container that is. C45_outside_violated: nor do differences outside the filter never matter: members of a collection nested in members of another are identified by all their properties. C45_outside_partial and C45_members_partial: differences in unselected properties of nested records and of the records in collections (also their primary keys) do not affect the result; missing: collections inside members of collections (false of the code), and compare_as."),
"C63": ("proved", "C63_items with functions given as compare_as that may change values without parts (CompareFlat)."),
"C49": ("partial", "False of the code (C49_violated): an integer beyond 2**50 under an unknown key comes back as a string. C49_kept: a JsonRecord keeps exactly the unclaimed entries; C49_written / C49_partial: they are written back, unchanged if their integers are within range; C49_plain_rejects: a plain record raises."),
"C50": ("partial", "False of the code (C50_violated): a converter that raises AttributeError silently drops the property. C50_partial and C50_value hold if no converter of a written property raises AttributeError; C50_invisible and C50_hidden_in cover properties with json_name=None."),
"C51": ("proved", "C51_condition states when two property names give the same JSON name (foo_bar and fooBar); C51_round_trip and C51_no_clash hold otherwise."),
"C52": ("proved", "json_out converters and floats are parameters; JSON data is what json.dumps takes."),
"C48": ("partial", "False of the code (C48_violated): a plain Record inside a JsonRecord is written with its JSON names and read with its constructor, which does not know them. C48_partial: any nesting of JSON records, JSON lists and dicts, and plain records and collections whose properties are neither renamed nor converted. C48_collections_partial: JsonRecordList and JsonRecordDict."),
"C53": ("partial", "False of the code (C53_violated): values that are None are ignored by the visit and come back unset; C53_violated_empty: an object without visited properties comes back as a dict; C53_violated_union: of a property that can hold a text or a record, cast reads no text; C53_violated_classes: of two record types the first that takes the data is made. C53_partial: any nesting of records, list and dict collections whose values are kept and inverted, with at most one record type among the types of a property; visited properties of collections are unset (the model has no collections in which they are set)."),
"C54": ("proved", "C54_shows says what any visit that returns shows, for the whole object; C54 is the reading for the keys of a record."),
"C55": ("partial", "C55_visit and C55_restored / C55_slot prove it for visit. For cast it is false (C55_cast_violated): all members of a dict read into a ListCollection are visited at index 0; C55_cast_partial and C55_cast_nolist_partial give what holds."),
"C64": ("proved", "Wellmade states what is assumed of the functions of the user; their results are arbitrary otherwise. JSON texts, classes and documents of any depth."),
"C65": ("proved", "C65 for from_json, C65_constructor for the constructors. Blamed says who raised the exception."),
"C66": ("proved", "For the default grok, collect and produce hooks and any reverse."),
"C67": ("proved", "For the default unpack, aggregate and reduce hooks and any apply."),
"C68": ("partial", "False of the code (C68_violated, C68_cast_violated): a TypeError raised by apply below a property with several types is swallowed, and the record disappears from the result. C68_partial and C68_cast_partial: it holds if no property has several types, or if apply (reverse) raises no TypeError."),
"C58": ("proved", "For every heap of placeholders that any history of operations reaches. Names that EmptyVal itself defines are outside __getattr__ and not modelled."),
"C59": ("proved", "itertypes as a list; C59_lazy: a prefix of the input gives a prefix of the output."),
"C69": ("partial", "False of the code (C69_violated and others): __getitem__, __call__ and __getattr__ are looked up in the class's own __dict__ only, and slices of anything go through. C69_partial: it holds, slices apart, if no class inherits the three methods."),
"C56": ("proved", "For every history of property and class declarations, including failed ones. An unknown name in primary_key raises KeyError rather than PropertiesNotKnown. The metaclass choice and the C3 linearization are modelled too."),
"C70": ("partial", "False of the code: C70_violated (a property foo0 is hidden by the accessor that goes with foo), C70_shadow_violated (a plain attribute of a subclass hides the property, which stays listed). C70_partial: it holds for each name that all classes use for properties only, through any multiple inheritance."),
"C71": ("partial", "False of the code (C71_violated): a property object assigned to two names. C71_partial and C71_distinct_partial: it holds if no property object is used twice."),
"C72": ("proved", "For bodies in which each property object is used once; if two properties ask for the same accessor the later one gets it."),
"C57": ("partial", "False of the code as stated: ListProperty(of=X, traits=['unsafe']) is safe (C57_violated), and Property(json_name='x', lazy=True, default=None) raises KeyError or not depending on earlier declarations (C57_history_violated). Proved: every wanted trait is there (C57_traits, C57_safe), exactly these for Property(...) (C57_exact_partial), the same traits in all histories in which the declaration succeeds (C57_history_partial), the same type from then on (C57_again), arguments are accepted (C57_args, C57_accepts), and every declaration comes to an end (C57_terminates)."),
"C73": ("partial", "False of the code (C73_violated): LazySafeProperty(json_name='x'). Holds for Property (C73_property_partial) and for types that alone stand for a trait (C73_partial)."),
"C74": ("partial", "False of the code (C74_violated): ListProperty(of=X, traits=['ro'], default=()) can be assigned to. Holds for types without the trait safe (C74_partial), so for read-only declarations that neither ask for safe nor have an empty default (C74_call_partial)."),
"C75": ("proved", "For registries in which whatever defines __set__ has the trait ro or safe, and the types that stand for these traits define it, as the stock types do (stock_setters)."),
"C76": ("partial", "False of the code (C76_violated): a list that starts with a JSON object and has something else cannot be read. C76_partial, C76_records_partial and C76_declared_partial: it holds for all other documents whose keys do not clash with each other or with names of the class. C76_refused and C76_other_items: what becomes of the documents that have such lists."),
"C77": ("partial", "False of the code (C77_violated, C77_violated_silently): C77_no_effect and C77_never_deletes show that no assignment or deletion ever has an effect, and C77_missing that a missing name raises KeyError."),
"C78": ("partial", "False of the code (C78_violated): a JSON object inside a JSON object is written as {} (C78_lost: always). C78_partial: it holds for documents of any depth without these; C78_declared_partial: also with declared properties. C78_keys and C78_nc_keys say which keys survive."),
"C79": ("proved", "For all dates; dateutil, if installed, is assumed to read ISO dates."),
"C80": ("partial", "False of the code without dateutil (C80_violated). C80_fallback_partial: exactly the times in whole seconds without a time zone survive then; C80_dateutil_partial: all with a dateutil that reads ISO texts. C80_never_another: none is ever read as another time."),
"C81": ("proved", "C81 for all types and values; C81_kept, C81_dates and C81_refused say what becomes of them."),
"C82": ("partial", "False of the code (C82_violated): the month 2001-02 is read as 2020-01-02. C82_partial: what is read is said by the text up to hyphens, T and spaces anywhere. C82_reads: all notations are read rightly."),
"C83": ("proved", "For all numbers and strings."),
"C84": ("partial", "False of the code (C84_violated): StringProperty turns everything into text (C84_never), None into 'None'. C84_partial: UnicodeProperty refuses."),
"C85": ("partial", "False of the code (C85_violated): reflect does not return for a recursive type. C85_partial: it returns for exactly the types without types within types without end; C85_recursion: for others any recursion limit is exceeded. Collections with a tuple of item types are outside: reflect raises TypeError for them."),
"C86": ("partial", "False of the code (C86_violated): of a property that can be a Cat or a Dog only the first is described. C86_partial: apart from this the description is complete and true at any depth; C86_mentions_partial: all types reached so are in it."),
"C87": ("partial", "False of the code (C87_violated): a type made with json_name= or lazy= raises TypeError when called, as JsonProperty.__init__ comes before the made one. C87_exact: what each argument is, whatever the order; C87_partial: the property holds where made types are based on the type that has the argument; C87_raises and C87_accepted say when there is a TypeError."),
"C88": ("partial", "False of the code: ListProperty(of=Dog, isa=AnimalList) holds any animals (C88_items_violated), and two container classes of the same name share their generated types, so a ListProperty can hold dicts (C88_kind_violated). C88_kind_partial: the kind is right if no two container classes have one name; C88_items_partial: the items are right unless isa is given; C88_isa: what holds then."),
"C89": ("proved", "For any overridden methods that do not fail an assertion and make nothing of an unset slot (GoodHooks); C89_default proves that of the default methods."),
"C90": ("partial", "False of lists: positions shift as items are removed (C90_violated). Proved for all differences that are about attributes of nested records (C90_partial), in particular for objects without lists, dicts and collections (C90_nested_partial)."),
"C91": ("proved", "C91 and C91_text: written and read back; C91_says and C91_reads: each half against a description of the JSON form; C91_distinct: nothing is lost; C91_refused: other kinds; C91_diff: the diff method."),
"C92": ("partial", "False of the code: MOVED differences are counted but not mentioned (C92_violated), and str() raises ValueError when a dict has the key None (C92_raises). C92_partial: it holds for all others with components whose text can be read back (C02). C92_info: one difference."),
"C93": ("proved", "C93: any number of writes. C93_post, C93_delete: not even the value written is changed. C93_one, C93_delete_one: one object only. C93_value_violated: put with None can change the value it was given, when an item is part of another one."),
"C94": ("proved", "C94_get, C94_live: FieldSelector.get. C94, C94_independent: MultiFieldSelector.get."),
"C95": ("partial", "False of the code without copy=: MultiFieldSelector([-1], [0, 'n']) puts an item of the source into the target and then writes to it (C95_violated). C95_copy: it holds with copy= for every copying function, and C95_deepcopy: deepcopy is one. C95_partial: without copy= it holds for a single selector. C95_delete: MultiFieldSelector.delete."),
"C96": ("proved", "C96_get, C96_put, C96_delete: the memory follows the tree; C96: equal objects cannot be told apart. C96_shared_violated: for an object that has a part twice, writing to one place changes the other. post is not included."),
"C97": ("partial", "C97_partial: the round trip when no property is called self, init_dict, values or json_data (as far as the constructor takes them), every eager property has a value, and there is no JsonRecordDict. C97_distinct, C97_string. Each hypothesis is needed: C97_default_violated, C97_own_violated, C97_json_dict_violated."),
"C98": ("proved", "C98_fs, C98_mfs, C98_fs_distinct. Uses the parser of C97."),
"C99": ("partial", "C99_violated: two threads that ask at the same time may get different classes; C99_other_type_violated, C99_pickle_violated. For every schedule: the class is of the kind asked for and nothing is raised if item types have distinct names (C99_partial, C99_no_error, C99_pickle); once a first call has returned and none is under way all later calls agree (C99_settled, C99_first); each call ends in eight steps (C99_ends) and makes at most one class (C99_made); alone, it is the sequential function (C99_alone)."),
"C100": ("partial", "C100_violated: two first reads may evaluate the default twice and return different objects; C100_read_only_violated, C100_assignment_violated, C100_delete_violated. For every schedule: where values come from (C100_partial), that they are admitted (C100_admitted), one evaluation per read at most (C100_evaluations), which errors (C100_errors), that all end (C100_ends), and that once set and at rest the default is never evaluated again (C100_set, C100_read_only); alone, a read is that of the sequential model (C100_alone)."),
"C101": ("partial", "C101_violated: a record with an empty typed collection cannot be hashed (C101_empty: never, whatever else it holds); C101_union_violated: nor one with a string in a property that may hold a string or a collection (C101_string). C101_diff: lists of such records cannot be compared. What holds: C101_partial and C101_identity, without unions and empty collections."),
"C102": ("partial", "Proved: all raise statements but four raise what they say (C102_partial), messages say what their parts say for every template (C102_format, C102_created), the two format errors (C102_missing_keyword, C102_missing_positional), attributes (C102_attribute_partial), copies of exceptions raised without keywords (C102_copy_partial), class hierarchy (C102_subclass, C102_catch, C102_except). Violated: four raise statements end with AttributeError (C102_violated, C102_broken); `name` of FieldSelectorAttributeError is lost since python 3.10 (C102_attribute_violated); exceptions raised with keywords cannot be copied or pickled (C102_copy_violated, C102_copy_fails); the text passed with FieldSelectorException is not shown (C102_text_lost)."),
"C103": ("partial", "Proved: items and properties are independent for all histories (C103_separate, with C103_list and C103_dict linking to C34 and C35), construction (C103_construct), diff (C103_diff, C103_diff_reports), pickling of classes made with `class` (C103_pickle_partial), what + does instead (C103_add_partial, C103_required). Violated: == ignores the properties (C103_eq_violated) although diff reports them (C103_equal_but_differ); + , JSON and pickling of subclasses of list_of(...) forget them (C103_add_violated, C103_json_violated, C103_pickle_violated); == with a plain list raises PropertyRequired if a property is required (C103_compare_violated)."),
"C104": ("partial", "Proved: a thread on its own is always right (C104_alone) and leaves true caches (C104_leaves); under every schedule each object is marshalled rightly or raises KeyError, the latter only if its type was not in the second cache at the start (C104_partial), never once the types are known (C104_warm); every call ends within six of its own steps (C104_ends). Violated: two threads that marshal the first objects of a type at the same time: KeyError (C104_race, C104_violated); objects of one type that differ in having a json_data attribute (C104_types_violated)."),
"C105": ("partial", "Proved: the types and the exceptions are those of a single thread under every schedule (C105_types, C105_raises), placeholders keep their types (C105_kept), every thread ends within seven of its own steps per operation (C105_ends), types that had a placeholder keep it as the only one (C105_single_partial). Violated: two threads may each make a placeholder for the same new types and go on with different objects (C105_single_violated), against the docstring 'Each set of types gets a single, persistent EmptyVal object'."),
"C106": ("partial", "Proved: the traits of what is returned, under every schedule (C106_traits); types are kept (C106_kept); every call ends under every schedule that goes on giving it turns (C106_ends); a thread alone does what the model of one thread does (C106_alone); no failures when the types are there from the beginning, or when a call begins after another one for the same traits has returned (C106_partial, C106_after_partial). Violated: spurious PropertyTypeClash and PropertyTypeMixinFailure (C106_race, C106_violated), two types for the same traits (C106_single_violated), two class statements with the same traits that both succeed (C106_clash_violated)."),
"C107": ("partial", "Proved for every memory: only lazy properties get values, and the result is a document of new objects only (C107); without lazy properties nothing changes and the result is separate from everything that existed (C107_separate); the same outcome as for trees, with no shared parts (C107_same); two calls give separate documents (C107_again). Violated: to_json sets lazy properties of the record (C107_unchanged_violated); a record that is part of itself cannot be marshalled (C107_ends_violated)."),
"C108": ("partial", "Proved for every memory: nothing that existed changes, and the record consists of new objects, parts of the data and the default objects (C108). Where every property is typed with record classes or types of objects without parts, the record is all new, copies of unknown keys included (C108_partial). Where defaults are new objects, records made from separate data are separate (C108_apart_partial). For objects that look like a JSON value, shared or not, the outcome is the one on trees: both fail, or the record made looks like the one of the tree (C108_same). Violated: an untyped property holds the very list in the data (C108_violated); with default=[] all records share the list (C108_apart_violated)."),
"C109": ("partial", "Proved: after any sequence of ==, hash/str, to_json, diff, visit and attribute reads, each of these returns or raises what it would have at the start (C109); they only store values of unset lazy attributes, those that reading gives (C109_stores); with no unset lazy attribute repr and pickles are unchanged (C109_shown_partial); with assignments and deletions of attributes that are not lazy and that no lazy default reads, a history is the same without them (C109_later_partial). Violated: comparing makes lazy attributes appear in repr and in pickles (C109_shown_violated); a record that was compared keeps the stale lazy value when an attribute it was computed from is assigned (C109_later_violated); deleting a lazy attribute raises KeyError unless something looked at it before (C109_results_violated). Python's recursion limit is not part of the claim."),
"C110": ("partial", "Violated: a default method that reads another attribute with a default sees it unset or set depending on the set order, so the constructor raises AttributeError in some processes only (C110_accepted_violated), or, with V1Property, silently makes a different record (C110_violated). Proved: if the defaults only read attributes that are passed or have no default, and lazy attributes that depend on nothing else, every order refuses the arguments or every order stores the same values, computed lazy attributes included (C110_partial). Defaults that assign or delete attributes are left out. The code comments that only lazy properties should have default methods, without enforcing it."),
"C111": ("partial", "Violated: bound methods, classes and callable objects are inspected with the parameter that python fills in, so default=obj.method is accepted and fails when used (C111_default_violated), default=SomeClass is given the record (C111_class_gets_record), compare_as=SomeClass gets one argument too many (C111_compare_violated); required keyword-only parameters are not noticed (C111_default_kwonly_violated); compare_as=str.lower is applied to the record (C111_clean_up_violated); a json_data method with any keyword-only parameter is given extraneous= (C111_json_violated) and one with **options is not (C111_extraneous_violated). Proved for functions whose keyword-only parameters have defaults: exactly the functions that can be called neither with nothing nor with the record are refused, and the others are called rightly (C111_default_partial); the same for compare_as (C111_compare_partial); and for json_data methods without other keyword-only parameters (C111_json_partial)."),
"C112": ("partial", "Violated: if a selector names a member of a collection of records by its key and then a part of it (such as people.0.name), that member is not compared at all, because its key is looked up with `fs in compare_filter`, which is true only of members selected as a whole (C112_violated). Proved at any depth for everything else: touched properties agree, simple containers have the same normalised items, and the members that are selected as a whole or by a wildcard can be paired one to one such that each pair agrees (C112_partial). Functions given as compare_as may change values without parts (CompareFlat)."),
"C113": ("partial", "Violated: with extraneous=True the extraneous fields are compared, but an item that has a value only in one of these is left out (C113_violated); and an item is left out although a field of it holds a record, if that record has nothing in its own primary key (C113_records_violated). Proved: exactly which items are left out without extraneous: those all of whose key fields are None, empty text or not set, or hold a record or collection of which the same is true (C113_rule, for properties with at most one record type); for records none of whose fields is declared to hold records, these are the items the documentation says (C113_partial). Missing: duck_type and filters."),
"C114": ("partial", "Violated: dict collections with the same values under different keys have the same identity (C114_violated), as have records of a subclass that differ in what the subclass adds (C114_subclass_violated), and members of different classes of a collection with several item types (C114_items_violated). Proved for everything else (C114_partial); properties with unions of record types are in C29."),
"C115": ("partial", "Violated: of a key of more than 32 characters only 30 are printed, also of a declared primary key (C115_violated); str() of a record with an empty typed collection raises (C115_prints_violated). Proved: short keys are told apart (C115_partial), what the text is (C115_text), that it depends on the identifying properties only (C115_key), when it can be printed (C115_prints_partial), that python's repr of plain values meets the assumption (C115_plain), and that lists show their length (C115_list)."),
"C116": ("partial", "Violated: with the default options, records whose lists are in another order are only found to be the same if fuzzy matching pairs them, which is not transitive (C116_default_violated); with ignore_empty_slots an unset list is the same as an empty list and as a list of empty records, which differ (C116_violated); where lists of different classes meet, they are compared in order, while lists of one class are not (C116_types_violated). Proved without ignore_empty_slots for objects in which equal parts are of one type (C116_partial), which holds if all containers are typed and there is one class per item type (C116_typed). Symmetry also with ignore_empty_slots (C116_symm). Fuzzy matching is left out, except with recurse, which does not use it. Functions given as compare_as may change values without parts (CompareFlat)."),
"C117": ("partial", "Violated: == of dict collections does not depend on the order of insertion, but members with the same identity are compared in that order (C117_violated). Proved where dicts have their keys in the same order on both sides, collections are of the same class and equal members have equal identities (C117_partial); that is so if items of lists and dicts have no parts and records in collections are identified by values without parts (C117_flat). Assumes that values without parts are equal only if they are the same (the diff model compares identities structurally); the extraneous option is left out. Functions given as compare_as may change values without parts, if they look at the value only and do not raise (ComparePure)."),
"C118": ("partial", "Violated: items of plain lists, dicts and collections of values that cannot be hashed are replaced by their text, so [\"[1]\"] and [[1]] have no differences (C118_violated). Proved where these items can be hashed (C118_partial). Texts are compared as they are; compare_as is left out."),
"C119": ("partial", "Violated: an item picked by its index has another index in the copy (C119_violated), and record_id subscripts the selectors with the index of an item, which gives nothing where they have a wildcard, so nested wildcards are ignored in identities (C119_wild_violated). Proved where the selectors go through records by name and through collections of records by wildcard, select everything else whole, select whole what identifies the members of collections (the primary key, if all of it is selected), and selected attributes that are unset or None are so in a new record (C119_partial). Functions given as compare_as may change values without parts, if they look at the value only and do not raise (ComparePure)."),
"C120": ("partial", "Violated: a collection of records in which an identity contains an empty typed collection (C120_violated), a collection that declares several item types (C120_tuple), and two collections with items of the same identity of which one is of a class that extends the other's (C120_mixed, C120_mixed_violated) cannot be compared. Proved, with text normalisation and all the ignore options, where none of this occurs and no property has a union with a record class (C120_partial)."),
"C121": ("partial", "Violated: a text given for a collection passes the check for sequences, and the exception is a CollectionCoerceError without the place (C121_violated). Proved: the right exception for all other data (C121_partial), that the place named is a place of malformed data (C121_place), and that cast returns only if everything needed is well-formed, at any depth (C121_accepted)."),
"C122": ("partial", "Violated: data that is no mapping makes grok raise VisitorGrokRecordError, which is no TypeError, so that the other types are not tried (C122_violated). Proved where the classes before raise a TypeError, which JsonConversionError and the coercion errors are (C122_partial), and for data that all classes refuse in this way (C122_other). Also for data with any number of slots, at any place in the data (C122_slots, C122_slots_other)."),
"C123": ("proved", "Results only: when an operation raises, the theorem says nothing (C109 says that it raises the same later). Where to_json swallows an AttributeError from inside a record in an attribute, the specification says that the attribute is not written."),
"C124": ("proved", "The world's None must not be a record."),
"C125": ("partial", "Violated: Property(json_name='x', lazy=True, default=None) raises a KeyError, since the type that is made is of the last type looked at and not of the one chosen (C125_violated). Proved: PropertyTypeMixinNotPossible is raised exactly if a trait is missing, and nothing is made (C125_missing); with at most two wanted traits composing succeeds (C125_two_partial); and the other exceptions are PropertyTypeMixinFailure, PropertyTypeClash, KeyError and TypeError, never ValueError (C125_errors). Missing: which sets of three or more traits can be composed."),
"C126": ("partial", "Violated: a tuple as a positional argument makes repr raise TypeError, since \"%r\" % x takes it for the arguments of the format (C126_violated, C126_tuple); a tuple with one member is shown as its member (C126_one_member). Proved: without such tuples, and for arguments whose own repr evaluates to them (C97), the exception is created again (C126_partial). Missing: keyword arguments that are tuples."),
"C127": ("partial", "Violated: a wildcard is lost, so that whole items count where a part of every item is selected (C127_wildcard, C127_violated); and a record in a property without a type counts whole (C127_names_violated). Proved: for selectors that go through records by name and through collections by index or key, into properties whose types are records with a selected property that identifies them (C127_partial); the empty selector (C127_empty). Missing: plain lists and dicts, normalize_object_slot."),
"C128": ("partial", "Violated: the held record is taken as each of the types, and the identity with most parts that are set counts, so that the primary key of a person is ignored where a company, which has no primary key, would be allowed (C128_violated). Proved: which identity counts, exactly (C128_rule); it is the record's own if more parts of it are set than under the other types (C128_partial), in particular if the other types are identified by attributes that the record does not have (C128_disjoint)."),
"C129": ("partial", "Violated: where the source has no record on the way to a selected attribute, patch deletes the attribute and leaves the record in the target, which the comparison then reports (C129_violated). Proved: no differences, in either direction, if the selectors go through both objects along records of the same classes (C129_partial). Assumes that unset attributes cannot be read. Functions given as compare_as may change values without parts, if they look at the value only and do not raise (ComparePure)."),
"C130": ("partial", "The first sentence is proved (C130_iff, C130_sound) (equal objects: see C117, which covers recurse). The second is violated: members of a dict collection with the same identity are matched in the order of insertion without recurse (C130_violated), and an extraneous primary key keeps records apart without recurse (C130_violated_key). Proved where records are collected in lists and members that agree have the same identity (C130_partial), which holds of records identified by values without parts (C130_flat). Functions given as compare_as may change values without parts (CompareFlat)."),
"C131": ("partial", "Violated: extraneous properties are not written with extraneous=False, so what is read back is equal, but if records are identified by one they are not matched (C131_violated). Proved (C131_partial) if lists and dicts of values have items without parts and the records in collections are identified by values without parts that are not extraneous; likewise for cast(T, visit(x)) under the conditions of C53 (C131_visit_partial). Missing: that the object read back has no impossible values is assumed. Functions given as compare_as may change values without parts, if they look at the value only and do not raise (ComparePure)."),
"C132": ("partial", "Proved for programs without copy.copy (C132_partial), also that a dict finds a selector by which object it is (C132_dict), and what == and in do (C132_compare_partial). Violated: copy.copy gives a selector that shares its list with the original (C132_violated; C132_shared says exactly what is shared), equal selectors have different hashes (C132_hash_violated), and == with anything that is no selector raises TypeError (C132_compare_violated)."),
"C133": ("partial", "Violated: `other` of an item that was removed and `base` of an item that was added are the selectors of the container that the generator goes on to use, and at the top both sides are one object (C133_violated). Proved for consumers that change only the other selectors they got and those they made, without copy.copy (C133_partial, C133_diff_partial); these are all different objects (C133_distinct). C133_diff_partial also shows that without a filter what a comparison reports is the same at whatever paths it starts. Comparisons with a filter are left out."),
"C134": ("partial", "Violated: the generators copy the visitor when they are asked for their first item, not when they are made, so if reduce returns its generator and it is consumed when the visit has gone on, apply sees a path without the way to the record (C134_violated); in a collection even if it is consumed at once (C134_list_violated); the filter is asked about the same wrong path and lets through what it should leave out (C134_filter_violated). Proved if no generator is started after the visit has left its item (C134_partial), in particular if the functions start all generators they are given before they return, whatever happens to them afterwards (C134_prompt). Exceptions are left out, and a generator of a union type is not abandoned for the next type."),
"C135": ("partial", "Violated: the docstring says that each set of types gets a single object, but the cache is keyed by the tuple, so placeholder((A, B)) and placeholder((B, A)) are different objects (C135_violated). Proved: the same tuple always gets the same object (C135_tuple), and placeholders of the same set of types, in any two histories, behave alike: every chain of operations raises the same on both or comes to placeholders of the same set of types (C135_partial)."),
"C136": ("partial", "Violated: 2.75 is taken as 2, silently (C136_violated). Proved: whole numbers of any type are taken and stay the same number (C136_partial); other floats and decimals lose exactly what comes after the point, and nan and the infinities are refused (C136_fraction); the texts that are taken are exactly those that say a whole number - digits with single underscores between them, a sign, white space around - and as that number (C136_text); so does NumberProperty with these texts, and all other texts are left to float() (C136_number); everything else is refused (C136_refused). That int() of a float drops the fraction is assumed of python; what float() returns is not modelled."),
"C137": ("partial", "Violated: items of a list are deleted one after the other, so [0] and [1] delete the first and the third, but [1] and [0] the first and the second (C137_violated); patch fills an empty list from the start, or raises (C137_patch_violated). Proved: iterating gives exactly the selectors that no other selector points around, each once (C137_iter), so the order is all that can differ; delete leaves the same at every place that is not on the way to a selected one, if no selected one is an item of a list or has a wildcard (C137_delete_partial), and both return or both raise without a change (C137_delete_returns_partial); patch likewise, where C20_patch_partial applies (C137_patch_partial); get, where C18_kept_partial applies (C137_get_partial). Missing: that the results are equal as a whole, and which exception is raised."),
"C138": ("partial", "Violated: if two properties have the same JSON name and the key is in the document, the second removal of the key from the set of unknown keys raises a bare KeyError (C138_violated). Proved: if no key of the document is the name of two properties, every exception is a JsonConversionError that starts with the key of a property (C138_partial); otherwise an exception is always raised, so no such document can be read (C138_refused); and a bare exception is always that KeyError (C138_key_error). Such objects are written all the same, with the value of the last property of that name and nothing of the others (C138_written)."),
"C139": ("partial", "Violated: a collection property converts the value and then calls the setter that converts it again, so check is called twice (C139_violated), and a check that takes each value once refuses everything (C139_refused). Proved: C139 for other properties (C139_safe); for collection properties the calls are those of another property and then at most one more check, of the same value, and if the assignment works it stores what another property would (C139_partial); with a check that says the same when asked once more the results are the same (C139_same). V1 properties, whose setter catches the exception of a refused value, make the calls of the property they extend and no more (C139_v1), store what it would, and empty the slot exactly if the value was refused with a CoercionError, is None or the v1_none, and there was a value (C139_v1_stored); with a steady check collection properties end up as others would (C139_v1_same)."),
"C140": ("partial", "Violated: the value is not copied, so that a value that can be changed is a part of all items afterwards (C140_violated); for attributes without a type every item holds the very object that was passed (C140_same). Proved for values without parts, like texts and numbers, for all classes, selectors and whether or not an exception ends the loop (C140_partial)."),
"C141": ("partial", "Violated: the set of the types that have an argument is iterated over while other threads may add to it, which python answers with RuntimeError (C141_violated). Proved: if the loop comes to its end, what was found is what there was at its start (C141_found_partial); the exception is raised only if a new type that has the argument was made meanwhile (C141_partial), and always then (C141_raises)."),
"C142": ("partial", "Violated: two threads that both find no selector make one each, and return different ones (C142_violated). Proved for all schedules: the selector returned is always an instance of the class that was asked, never of a base class (C142_class_partial); and once a class keeps a selector and no call is between the test and the assignment, all later calls return that one (C142_same_partial), so that there is one for a single thread."),
"C143": ("partial", "Violated: a lazy property whose function reads an attribute that is not set raises AttributeError about that other attribute, and foo0 is then a placeholder (C143_violated). Proved for all classes and states: foo0 gives a value exactly if foo does, the same and with the same effects (C143_value_partial); it is a placeholder, for the type of the property, exactly if foo raises AttributeError (C143_empty_partial); all other exceptions are passed on (C143_error_partial); and for properties that are not lazy it is a placeholder exactly if the slot is empty, unless the property is a V1Property, which gives its v1_none (C143_partial). For a lazy property whose default and check raise no AttributeError and let none through, foo0 is never a placeholder (C143_lazy_partial); and once foo0 has given a value, it gives the same again without calling any function (C143_again_partial). Access through the class is not modelled."),
}
