{
 "claims": [
  {
   "property": "C01",
   "status": "proved",
   "theorems": [
    "Normalize.C01_lt_true_iff",
    "Normalize.C01_lt_error_iff",
    "Normalize.C01_lt_irrefl",
    "Normalize.C01_lt_trans",
    "Normalize.C01_trichotomy",
    "Normalize.C01_lt_asymm",
    "Normalize.C01_prefix_and_index",
    "Normalize.C01_derived"
   ],
   "note": "Order laws, TypeError condition and total_ordering operators, for all selectors."
  },
  {
   "property": "C02",
   "status": "partial",
   "theorems": [
    "Normalize.C02_roundtrip_iff",
    "Normalize.C02_violated",
    "Normalize.C02_roundtrip_partial",
    "Normalize.C02_path_injective"
   ],
   "note": "The promise is false (C02_violated). C02_roundtrip_iff says exactly for which selectors it holds: all but those with a negative index, an empty key, a key containing ']  or an identifier followed by a newline."
  },
  {
   "property": "C03",
   "status": "proved",
   "theorems": [
    "Normalize.C03_get_append",
    "Normalize.C03_get_nil"
   ],
   "note": ""
  },
  {
   "property": "C04",
   "status": "proved",
   "theorems": [
    "Normalize.C04_put_get"
   ],
   "note": "What the slot's conversion makes of the value is the assign/coerceItem of the class, linked to the property model by access_set_is_slots."
  },
  {
   "property": "C05",
   "status": "proved",
   "theorems": [
    "Normalize.C05_put_frame"
   ],
   "note": "Also when put raises."
  },
  {
   "property": "C06",
   "status": "proved",
   "theorems": [
    "Normalize.C06_wildcard_masks",
    "Normalize.C06_wildcard_all_fail",
    "Normalize.C06_wildcard_other_exc"
   ],
   "note": ""
  },
  {
   "property": "C07",
   "status": "partial",
   "theorems": [
    "Normalize.C07_violated",
    "Normalize.C07_get_or_none",
    "Normalize.C07_never_raises_partial"
   ],
   "note": "False of the code (C07_violated): a missing dict key raises KeyError. C07_get_or_none says exactly what happens; C07_never_raises_partial covers paths that do not look up missing dict keys or index the wrong kind of object."
  },
  {
   "property": "C08",
   "status": "proved",
   "theorems": [
    "Normalize.C08_failed_put"
   ],
   "note": ""
  },
  {
   "property": "C09",
   "status": "partial",
   "theorems": [
    "Normalize.C09_post_is_put",
    "Normalize.C09_out_of_order",
    "Normalize.C09_post_found_partial",
    "Normalize.Demo.C09_violated_lemma",
    "Normalize.C09_violated"
   ],
   "note": "First two parts proved. The last is false when a dict collection lacks a key before the last-but-one component (C09_violated); proved otherwise (C09_post_found_partial)."
  },
  {
   "property": "C10",
   "status": "proved",
   "theorems": [
    "Normalize.C10_delete_gone",
    "Normalize.C10_delete_frame",
    "Normalize.C10_delete_index",
    "Normalize.C10_failed_delete",
    "Normalize.C10_delete_unset"
   ],
   "note": "An unset V1Property reads as a value, so it is excluded from the first part."
  },
  {
   "property": "C11",
   "status": "partial",
   "theorems": [
    "Normalize.C11_violated",
    "Normalize.C11_init_partial",
    "Normalize.C11_add_valid"
   ],
   "note": "The full statement is false of the code (C11_violated): falsy invalid components are accepted. Proved for everything else."
  },
  {
   "property": "C12",
   "status": "proved",
   "theorems": [
    "Normalize.C12_monoid",
    "Normalize.C12_slice_split",
    "Normalize.C12_startswith",
    "Normalize.C12_startswith_comp"
   ],
   "note": "Monoid, slicing and startswith laws."
  },
  {
   "property": "C13",
   "status": "proved",
   "theorems": [
    "Normalize.C13_contains",
    "Normalize.C13_contains_comp"
   ],
   "note": "For any iteration order of the internal sets."
  },
  {
   "property": "C14",
   "status": "partial",
   "theorems": [
    "Normalize.C14_getitem_residual",
    "Normalize.C14_getitem_none",
    "Normalize.C14_contains_iff_complete",
    "Normalize.C14_comp_violated",
    "Normalize.C14_comp_partial"
   ],
   "note": "Proved for selector/tuple subscripts. For a single component the docstring is violated when the level has a wildcard (C14_comp_violated)."
  },
  {
   "property": "C15",
   "status": "proved",
   "theorems": [
    "Normalize.C15_iter_rebuild"
   ],
   "note": "repr text itself is not modelled, only the selectors it prints."
  },
  {
   "property": "C16",
   "status": "proved",
   "theorems": [
    "Normalize.C16_raises_iff",
    "Normalize.C16_order_irrelevant",
    "Normalize.C16_union"
   ],
   "note": ""
  },
  {
   "property": "C17",
   "status": "partial",
   "theorems": [
    "Normalize.C17_violated",
    "Normalize.C17_roundtrip_partial"
   ],
   "note": "False of the empty MultiFieldSelector (C17_violated); proved for every other one with representable components."
  },
  {
   "property": "C18",
   "status": "partial",
   "theorems": [
    "Normalize.C18_kept_partial",
    "Normalize.C18_only_partial",
    "Normalize.C18_violated"
   ],
   "note": "False of the code (C18_violated): picked list items move. Proved where items picked by index are the first ones, no attribute is None and constructors add nothing."
  },
  {
   "property": "C19",
   "status": "partial",
   "theorems": [
    "Normalize.C19_missing_unchanged",
    "Normalize.C19_deleted_partial",
    "Normalize.C19_succeeds_partial",
    "Normalize.C19_violated",
    "Normalize.C19_half_done"
   ],
   "note": "First part proved for every object. Second part is false of the code (C19_violated: list items; C19_half_done: a required property); proved for fields that are attributes or keys and may be removed."
  },
  {
   "property": "C20",
   "status": "partial",
   "theorems": [
    "Normalize.C20_patch_partial",
    "Normalize.C20_unreadable_unchanged",
    "Normalize.C20_violated"
   ],
   "note": "False of the code (C20_violated): an item missing from a dict collection. Proved for wildcard-free selectors when no dict key is created on the way."
  },
  {
   "property": "C21",
   "status": "proved",
   "theorems": [
    "Normalize.Slots.C21_type_safe",
    "Normalize.Slots.C21_assign"
   ],
   "note": "Invariant over all histories, including reads that run default methods which themselves use the record."
  },
  {
   "property": "C22",
   "status": "proved",
   "theorems": [
    "Normalize.Slots.C22_required_stays_set"
   ],
   "note": ""
  },
  {
   "property": "C23",
   "status": "proved",
   "theorems": [
    "Normalize.Slots.C23_readonly_raises",
    "Normalize.Slots.C23_readonly_constant"
   ],
   "note": "Between top-level operations; within one read a re-entrant default can still assign the slot twice."
  },
  {
   "property": "C24",
   "status": "proved",
   "theorems": [
    "Normalize.Slots.C24_read_set",
    "Normalize.Slots.C24_read_unset",
    "Normalize.Slots.C24_evaluated_once",
    "Normalize.Slots.C24_not_at_construction"
   ],
   "note": "Between top-level operations. The constructor part is for eager defaults that do not look at the record."
  },
  {
   "property": "C25",
   "status": "proved",
   "theorems": [
    "Normalize.Slots.C25_rejected_unchanged"
   ],
   "note": ""
  },
  {
   "property": "C26",
   "status": "proved",
   "theorems": [
    "Normalize.Slots.C26_construct_iff",
    "Normalize.Slots.C26_slots",
    "Normalize.Slots.C26_order_irrelevant",
    "Normalize.Slots.C26_missing_required",
    "Normalize.Slots.C26_init_dict"
   ],
   "note": "For eager defaults that do not take self, as stated in the property."
  },
  {
   "property": "C27",
   "status": "proved",
   "theorems": [
    "Normalize.Ident.C27_record_eq",
    "Normalize.Ident.C27_refl",
    "Normalize.Ident.C27_symm",
    "Normalize.Ident.C27_trans",
    "Normalize.Ident.C27_ne",
    "Normalize.Ident.C27_extraneous"
   ],
   "note": "Over well-formed object graphs; user-defined == of plain values obeys the laws. Where a plain list meets a typed collection the coercion makes == non-transitive, so transitivity is for values that do not mix the two."
  },
  {
   "property": "C28",
   "status": "partial",
   "theorems": [
    "Normalize.Ident.C28_equal_ids_partial",
    "Normalize.Ident.C28_violated",
    "Normalize.Ident.C28_violated_by_declared_type"
   ],
   "note": "False of the code: dict collections filled in a different order (C28_violated), and objects identified through a declared type (C28_violated_by_declared_type). Proved for equal objects of the same shape."
  },
  {
   "property": "C29",
   "status": "partial",
   "theorems": [
    "Normalize.Ident.C29_determined",
    "Normalize.Ident.C29_order",
    "Normalize.Ident.C29_exact_partial",
    "Normalize.Ident.C29_violated"
   ],
   "note": "Determination and order proved. Exactness is false for union types (C29_violated); proved for the rest."
  },
  {
   "property": "C30",
   "status": "partial",
   "theorems": [
    "Normalize.Slots.C30_read_unset",
    "Normalize.Slots.C30_assign_none_partial",
    "Normalize.Slots.C30_assign_none_required",
    "Normalize.Slots.C30_assign_other",
    "Normalize.Slots.C30_check_failure",
    "Normalize.Slots.C30_violated"
   ],
   "note": "False of the code for an unset property (C30_violated: KeyError). Proved for set properties, required ones, and all other values."
  },
  {
   "property": "C31",
   "status": "proved",
   "theorems": [
    "Normalize.Slots.C31_pickle",
    "Normalize.Slots.C31_reads"
   ],
   "note": "The instance dict transfer; pickle's own byte format is a parameter (copy)."
  },
  {
   "property": "C32",
   "status": "proved",
   "theorems": [
    "Normalize.Subtype.C32_isinstance",
    "Normalize.Subtype.C32_nested",
    "Normalize.Subtype.C32_member",
    "Normalize.Subtype.C32_returns_member",
    "Normalize.Subtype.C32_raises",
    "Normalize.Subtype.C32_idempotent"
   ],
   "note": "Including nested subtypes and coercion."
  },
  {
   "property": "C33",
   "status": "proved",
   "theorems": [
    "Normalize.Coll.C33_list",
    "Normalize.Coll.C33_list_results",
    "Normalize.Coll.C33_dict"
   ],
   "note": "Invariant over all histories of constructor and method calls, raising ones included."
  },
  {
   "property": "C34",
   "status": "partial",
   "theorems": [
    "Normalize.Coll.C34_partial",
    "Normalize.Coll.C34_construction",
    "Normalize.Coll.C34_history_partial",
    "Normalize.Coll.C34_uncoercible",
    "Normalize.Coll.C34_extend_self_violated",
    "Normalize.Coll.C34_violated",
    "Normalize.Coll.C34_violated_pop",
    "Normalize.Coll.C34_violated_index",
    "Normalize.Coll.C34_insert",
    "Normalize.Py.C34_slice_positions",
    "Normalize.Py.C34_slice_order",
    "Normalize.Py.C34_slice_get",
    "Normalize.Py.C34_slice_del",
    "Normalize.Py.C34_slice_set",
    "Normalize.Py.C34_slice_set_step",
    "Normalize.Py.C34_slice_zero"
   ],
   "note": "False of the code for insert (C34_violated), pop before the start (C34_violated_pop), index with a bound past the end (C34_violated_index) and coll.extend(coll), which never ends (C34_extend_self_violated). Proved for every other call and over histories; the list operations these are compared with are shown to follow python's description of slices (C34_slice_…)."
  },
  {
   "property": "C35",
   "status": "partial",
   "theorems": [
    "Normalize.Coll.C35_step",
    "Normalize.Coll.C35_history",
    "Normalize.Coll.C35_keys_unique",
    "Normalize.Coll.C35_mapping",
    "Normalize.Coll.C35_construction_partial",
    "Normalize.Coll.C35_construction_seq",
    "Normalize.Coll.C35_violated",
    "Normalize.Coll.C35_uncoercible"
   ],
   "note": "Method calls proved. Construction from another DictCollection loses the items (C35_violated); proved from mappings, and from sequences (C35_construction_seq)."
  },
  {
   "property": "C36",
   "status": "proved",
   "theorems": [
    "Normalize.Ident.C36_list",
    "Normalize.Ident.C36_dict",
    "Normalize.Ident.C36_other_kinds",
    "Normalize.Ident.C36_other_kinds_dict",
    "Normalize.Ident.C36_plain_list",
    "Normalize.Ident.C36_plain_dict",
    "Normalize.Ident.C36_refl_symm"
   ],
   "note": ""
  },
  {
   "property": "C37",
   "status": "proved",
   "theorems": [
    "Normalize.Generic.C37_unique",
    "Normalize.Generic.C37_class",
    "Normalize.Generic.C37_clash",
    "Normalize.Generic.C37_module_names_kept",
    "Normalize.Generic.C37_pickle",
    "Normalize.Generic.C37_pickle_other_process",
    "Normalize.Generic.C37_subclass_lost"
   ],
   "note": "Also across processes. An instance of a subclass of a generated class comes back as the generated class (C37_subclass_lost)."
  },
  {
   "property": "C38",
   "status": "proved",
   "theorems": [
    "Normalize.Diff.C38_self",
    "Normalize.Diff.C38_unchanged_only",
    "Normalize.Diff.C38_nothing",
    "Normalize.Diff.C38_default"
   ],
   "note": "Any options and sub-classed methods for which items_equal(x, x) is not false (C38_self); all real objects with the default methods and reflexive == (C38_default). Functions given as compare_as may change values without parts (CompareFlat)."
  },
  {
   "property": "C39",
   "status": "proved",
   "theorems": [
    "Normalize.Diff.C39_iff",
    "Normalize.Diff.C39_sound",
    "Normalize.Diff.C39_record",
    "Normalize.Diff.C39_default"
   ],
   "note": "Any nesting, with C39_record the literal form for records. Stated without compare_filter and duck_type, and without recurse (for which see C130); with fuzzy matching on, for identities determined by the compared content (IdSound). Functions given as compare_as may change values without parts (CompareFlat)."
  },
  {
   "property": "C40",
   "status": "proved",
   "theorems": [
    "Normalize.Diff.C40_mirror",
    "Normalize.Diff.C40_default",
    "Normalize.Diff.C40_duck_type_asymmetric"
   ],
   "note": "Stated without compare_filter and duck_type, for runs that complete on both sides and a symmetric ==. With duck_type it is false (C40_duck_type_asymmetric). Functions given as compare_as may change values without parts (CompareFlat)."
  },
  {
   "property": "C41",
   "status": "partial",
   "theorems": [
    "Normalize.Diff.C41_violated",
    "Normalize.Diff.C41_partial",
    "Normalize.Diff.C41_recurse"
   ],
   "note": "False of the code (C41_violated): dict members are matched by identity, not by key. Proved where no identity is shared across different keys (C41_partial); with recurse a common key contributes its members' differences (C41_recurse)."
  },
  {
   "property": "C42",
   "status": "proved",
   "theorems": [
    "Normalize.Diff.C42_simple",
    "Normalize.Diff.C42_simple_iff",
    "Normalize.Diff.C42_records"
   ],
   "note": "C42_simple covers lists, tuples, sets and dicts of plain values; C42_records collections of records without fuzzy matching (with it, see C47)."
  },
  {
   "property": "C43",
   "status": "proved",
   "theorems": [
    "Normalize.Diff.C43_points",
    "Normalize.Diff.C43_get",
    "Normalize.Diff.C43_default"
   ],
   "note": "Stated for duck_type off. Functions given as compare_as may change values without parts (CompareFlat)."
  },
  {
   "property": "C44",
   "status": "proved",
   "theorems": [
    "Normalize.Diff.C44_ws_keeps_words",
    "Normalize.Diff.C44_ws_same_words",
    "Normalize.Diff.C44_ws_joined",
    "Normalize.Diff.C44_ws_idempotent",
    "Normalize.Diff.C44_text_idempotent",
    "Normalize.Diff.C44_val_idempotent",
    "Normalize.Diff.C44_empty_slots",
    "Normalize.Diff.C44_empty_text"
   ],
   "note": ""
  },
  {
   "property": "C45",
   "status": "partial",
   "theorems": [
    "Normalize.Diff.C45_violated",
    "Normalize.Diff.C45_partial",
    "Normalize.Diff.C45_outside_partial",
    "Normalize.Diff.C45_outside_violated",
    "Normalize.Diff.C45_members_partial"
   ],
   "note": "False of the code for items of plain lists and dicts (C45_violated). C45_partial: entries are touched by the filter, or items of a simple container that is. C45_outside_violated: nor do differences outside the filter never matter: members of a collection nested in members of another are identified by all their properties. C45_outside_partial and C45_members_partial: differences in unselected properties of nested records and of the records in collections (also their primary keys) do not affect the result; missing: collections inside members of collections (false of the code), and compare_as."
  },
  {
   "property": "C46",
   "status": "partial",
   "theorems": [
    "Normalize.Diff.C46_violated",
    "Normalize.Diff.C46_violated_items",
    "Normalize.Diff.C46_partial"
   ],
   "note": "False of the code: a property unset on both sides yields nothing (C46_violated), and a matched item can yield both (C46_violated_items). C46_partial says exactly what every compared property yields."
  },
  {
   "property": "C47",
   "status": "proved",
   "theorems": [
    "Normalize.Diff.C47_pairs",
    "Normalize.Diff.C47_default",
    "Normalize.Diff.C47_shares"
   ],
   "note": "Any comparison of one type or of types given by the default methods; the score is the share of equal identity parts. Functions given as compare_as may change values without parts (CompareFlat)."
  },
  {
   "property": "C48",
   "status": "partial",
   "theorems": [
    "Normalize.Json.C48_partial",
    "Normalize.Json.C48_collections_partial",
    "Normalize.Json.C48_violated"
   ],
   "note": "False of the code (C48_violated): a plain Record inside a JsonRecord is written with its JSON names and read with its constructor, which does not know them. C48_partial: any nesting of JSON records, JSON lists and dicts, and plain records and collections whose properties are neither renamed nor converted. C48_collections_partial: JsonRecordList and JsonRecordDict."
  },
  {
   "property": "C49",
   "status": "partial",
   "theorems": [
    "Normalize.Json.C49_kept",
    "Normalize.Json.C49_written",
    "Normalize.Json.C49_partial",
    "Normalize.Json.C49_violated",
    "Normalize.Json.C49_plain_rejects"
   ],
   "note": "False of the code (C49_violated): an integer beyond 2**50 under an unknown key comes back as a string. C49_kept: a JsonRecord keeps exactly the unclaimed entries; C49_written / C49_partial: they are written back, unchanged if their integers are within range; C49_plain_rejects: a plain record raises."
  },
  {
   "property": "C50",
   "status": "partial",
   "theorems": [
    "Normalize.Json.C50_partial",
    "Normalize.Json.C50_value",
    "Normalize.Json.C50_invisible",
    "Normalize.Json.C50_violated",
    "Normalize.Json.C50_hidden_in"
   ],
   "note": "False of the code (C50_violated): a converter that raises AttributeError silently drops the property. C50_partial and C50_value hold if no converter of a written property raises AttributeError; C50_invisible and C50_hidden_in cover properties with json_name=None."
  },
  {
   "property": "C51",
   "status": "proved",
   "theorems": [
    "Normalize.Json.Auto.C51_round_trip",
    "Normalize.Json.Auto.C51_no_clash",
    "Normalize.Json.Auto.C51_object",
    "Normalize.Json.Auto.C51_condition"
   ],
   "note": "C51_condition states when two property names give the same JSON name (foo_bar and fooBar); C51_round_trip and C51_no_clash hold otherwise."
  },
  {
   "property": "C52",
   "status": "proved",
   "theorems": [
    "Normalize.Json.C52_is_json",
    "Normalize.Json.C52_int",
    "Normalize.Json.C52_total"
   ],
   "note": "json_out converters and floats are parameters; JSON data is what json.dumps takes."
  },
  {
   "property": "C53",
   "status": "partial",
   "theorems": [
    "Normalize.Visit.C53_partial",
    "Normalize.Visit.C53_violated",
    "Normalize.Visit.C53_violated_empty",
    "Normalize.Visit.C53_violated_union",
    "Normalize.Visit.C53_violated_classes"
   ],
   "note": "False of the code (C53_violated): values that are None are ignored by the visit and come back unset; C53_violated_empty: an object without visited properties comes back as a dict; C53_violated_union: of a property that can hold a text or a record, cast reads no text; C53_violated_classes: of two record types the first that takes the data is made. C53_partial: any nesting of records, list and dict collections whose values are kept and inverted, with at most one record type among the types of a property; visited properties of collections are unset (the model has no collections in which they are set)."
  },
  {
   "property": "C54",
   "status": "proved",
   "theorems": [
    "Normalize.Visit.C54_shows",
    "Normalize.Visit.C54"
   ],
   "note": "C54_shows says what any visit that returns shows, for the whole object; C54 is the reading for the keys of a record."
  },
  {
   "property": "C55",
   "status": "partial",
   "theorems": [
    "Normalize.Visit.C55_visit",
    "Normalize.Visit.C55_restored",
    "Normalize.Visit.C55_slot",
    "Normalize.Visit.C55_cast_partial",
    "Normalize.Visit.C55_cast_nolist_partial",
    "Normalize.Visit.C55_cast_violated"
   ],
   "note": "C55_visit and C55_restored / C55_slot prove it for visit. For cast it is false (C55_cast_violated): all members of a dict read into a ListCollection are visited at index 0; C55_cast_partial and C55_cast_nolist_partial give what holds."
  },
  {
   "property": "C56",
   "status": "proved",
   "theorems": [
    "Normalize.ClassMeta.C56_union",
    "Normalize.ClassMeta.C56_unique",
    "Normalize.ClassMeta.C56_clash",
    "Normalize.ClassMeta.C56_ok",
    "Normalize.ClassMeta.C56_reserved",
    "Normalize.ClassMeta.C56_pk",
    "Normalize.ClassMeta.C56_eager",
    "Normalize.ClassMeta.C56_sorted",
    "Normalize.ClassMeta.C56_others"
   ],
   "note": "For every history of property and class declarations, including failed ones. An unknown name in primary_key raises KeyError rather than PropertiesNotKnown. The metaclass choice and the C3 linearization are modelled too."
  },
  {
   "property": "C57",
   "status": "partial",
   "theorems": [
    "Normalize.Traits.C57_traits",
    "Normalize.Traits.C57_provides",
    "Normalize.Traits.C57_safe",
    "Normalize.Traits.C57_args",
    "Normalize.Traits.C57_exact_partial",
    "Normalize.Traits.C57_history_partial",
    "Normalize.Traits.C57_again",
    "Normalize.Traits.C57_accepts",
    "Normalize.Traits.C57_terminates",
    "Normalize.Traits.C57_violated",
    "Normalize.Traits.C57_history_violated"
   ],
   "note": "False of the code as stated: ListProperty(of=X, traits=['unsafe']) is safe (C57_violated), and Property(json_name='x', lazy=True, default=None) raises KeyError or not depending on earlier declarations (C57_history_violated). Proved: every wanted trait is there (C57_traits, C57_safe), exactly these for Property(...) (C57_exact_partial), the same traits in all histories in which the declaration succeeds (C57_history_partial), the same type from then on (C57_again), arguments are accepted (C57_args, C57_accepts), and every declaration comes to an end (C57_terminates)."
  },
  {
   "property": "C58",
   "status": "proved",
   "theorems": [
    "Normalize.Empty.C58_attr",
    "Normalize.Empty.C58_item",
    "Normalize.Empty.C58_call",
    "Normalize.Empty.C58_slice",
    "Normalize.Empty.C58_any",
    "Normalize.Empty.C58_chain",
    "Normalize.Empty.C58_kept",
    "Normalize.Empty.C58_single",
    "Normalize.Empty.C58_placeholder",
    "Normalize.Empty.C58_history",
    "Normalize.Empty.C58_assign",
    "Normalize.Empty.C58_aux"
   ],
   "note": "For every heap of placeholders that any history of operations reaches. Names that EmptyVal itself defines are outside __getattr__ and not modelled."
  },
  {
   "property": "C59",
   "status": "proved",
   "theorems": [
    "Normalize.Empty.C59_once",
    "Normalize.Empty.C59_all",
    "Normalize.Empty.C59_order",
    "Normalize.Empty.C59_lazy"
   ],
   "note": "itertypes as a list; C59_lazy: a prefix of the input gives a prefix of the output."
  },
  {
   "property": "C60",
   "status": "proved",
   "theorems": [
    "Normalize.C60_post_sorted"
   ],
   "note": "With the exact contents of every item."
  },
  {
   "property": "C61",
   "status": "proved",
   "theorems": [
    "Normalize.C61_wildcard_put",
    "Normalize.C61_wildcard_put_stops"
   ],
   "note": ""
  },
  {
   "property": "C62",
   "status": "proved",
   "theorems": [
    "Normalize.C62_wildcard_delete",
    "Normalize.C62_wildcard_delete_stops",
    "Normalize.C62_clear"
   ],
   "note": ""
  },
  {
   "property": "C63",
   "status": "proved",
   "theorems": [
    "Normalize.Diff.C63_slot",
    "Normalize.Diff.C63_items"
   ],
   "note": "C63_items with functions given as compare_as that may change values without parts (CompareFlat)."
  },
  {
   "property": "C64",
   "status": "proved",
   "theorems": [
    "Normalize.Json.C64",
    "Normalize.Json.C64_constructor",
    "Normalize.Json.C64_keywords"
   ],
   "note": "Wellmade states what is assumed of the functions of the user; their results are arbitrary otherwise. JSON texts, classes and documents of any depth."
  },
  {
   "property": "C65",
   "status": "proved",
   "theorems": [
    "Normalize.Json.C65",
    "Normalize.Json.C65_constructor"
   ],
   "note": "C65 for from_json, C65_constructor for the constructors. Blamed says who raised the exception."
  },
  {
   "property": "C66",
   "status": "proved",
   "theorems": [
    "Normalize.Visit.C66"
   ],
   "note": "For the default grok, collect and produce hooks and any reverse."
  },
  {
   "property": "C67",
   "status": "proved",
   "theorems": [
    "Normalize.Visit.C67"
   ],
   "note": "For the default unpack, aggregate and reduce hooks and any apply."
  },
  {
   "property": "C68",
   "status": "partial",
   "theorems": [
    "Normalize.Visit.C68_partial",
    "Normalize.Visit.C68_cast_partial",
    "Normalize.Visit.C68_violated",
    "Normalize.Visit.C68_cast_violated"
   ],
   "note": "False of the code (C68_violated, C68_cast_violated): a TypeError raised by apply below a property with several types is swallowed, and the record disappears from the result. C68_partial and C68_cast_partial: it holds if no property has several types, or if apply (reverse) raises no TypeError."
  },
  {
   "property": "C69",
   "status": "partial",
   "theorems": [
    "Normalize.Empty.C69_violated",
    "Normalize.Empty.C69_call_violated",
    "Normalize.Empty.C69_getattr_violated",
    "Normalize.Empty.C69_slice_violated",
    "Normalize.Empty.C69_partial"
   ],
   "note": "False of the code (C69_violated and others): __getitem__, __call__ and __getattr__ are looked up in the class's own __dict__ only, and slices of anything go through. C69_partial: it holds, slices apart, if no class inherits the three methods."
  },
  {
   "property": "C70",
   "status": "partial",
   "theorems": [
    "Normalize.ClassMeta.C70_partial",
    "Normalize.ClassMeta.C70_violated",
    "Normalize.ClassMeta.C70_shadow_violated"
   ],
   "note": "False of the code: C70_violated (a property foo0 is hidden by the accessor that goes with foo), C70_shadow_violated (a plain attribute of a subclass hides the property, which stays listed). C70_partial: it holds for each name that all classes use for properties only, through any multiple inheritance."
  },
  {
   "property": "C71",
   "status": "partial",
   "theorems": [
    "Normalize.ClassMeta.C71_partial",
    "Normalize.ClassMeta.C71_distinct_partial",
    "Normalize.ClassMeta.C71_violated"
   ],
   "note": "False of the code (C71_violated): a property object assigned to two names. C71_partial and C71_distinct_partial: it holds if no property object is used twice."
  },
  {
   "property": "C72",
   "status": "proved",
   "theorems": [
    "Normalize.ClassMeta.C72"
   ],
   "note": "For bodies in which each property object is used once; if two properties ask for the same accessor the later one gets it."
  },
  {
   "property": "C73",
   "status": "partial",
   "theorems": [
    "Normalize.Traits.C73_property_partial",
    "Normalize.Traits.C73_partial",
    "Normalize.Traits.C73_violated"
   ],
   "note": "False of the code (C73_violated): LazySafeProperty(json_name='x'). Holds for Property (C73_property_partial) and for types that alone stand for a trait (C73_partial)."
  },
  {
   "property": "C74",
   "status": "partial",
   "theorems": [
    "Normalize.Traits.C74_partial",
    "Normalize.Traits.C74_call_partial",
    "Normalize.Traits.C74_violated"
   ],
   "note": "False of the code (C74_violated): ListProperty(of=X, traits=['ro'], default=()) can be assigned to. Holds for types without the trait safe (C74_partial), so for read-only declarations that neither ask for safe nor have an empty default (C74_call_partial)."
  },
  {
   "property": "C75",
   "status": "proved",
   "theorems": [
    "Normalize.Traits.C75"
   ],
   "note": "For registries in which whatever defines __set__ has the trait ro or safe, and the types that stand for these traits define it, as the stock types do (stock_setters)."
  },
  {
   "property": "C76",
   "status": "partial",
   "theorems": [
    "Normalize.AutoJson.C76_partial",
    "Normalize.AutoJson.C76_records_partial",
    "Normalize.AutoJson.C76_refused",
    "Normalize.AutoJson.C76_other_items",
    "Normalize.AutoJson.C76_declared_partial",
    "Normalize.AutoJson.C76_violated"
   ],
   "note": "False of the code (C76_violated): a list that starts with a JSON object and has something else cannot be read. C76_partial, C76_records_partial and C76_declared_partial: it holds for all other documents whose keys do not clash with each other or with names of the class. C76_refused and C76_other_items: what becomes of the documents that have such lists."
  },
  {
   "property": "C77",
   "status": "partial",
   "theorems": [
    "Normalize.AutoJson.C77_no_effect",
    "Normalize.AutoJson.C77_never_deletes",
    "Normalize.AutoJson.C77_missing",
    "Normalize.AutoJson.C77_violated",
    "Normalize.AutoJson.C77_violated_silently"
   ],
   "note": "False of the code (C77_violated, C77_violated_silently): C77_no_effect and C77_never_deletes show that no assignment or deletion ever has an effect, and C77_missing that a missing name raises KeyError."
  },
  {
   "property": "C78",
   "status": "partial",
   "theorems": [
    "Normalize.AutoJson.C78_partial",
    "Normalize.AutoJson.C78_lost",
    "Normalize.AutoJson.C78_declared_partial",
    "Normalize.AutoJson.C78_declared_wins",
    "Normalize.AutoJson.C78_keys",
    "Normalize.AutoJson.C78_nc_keys",
    "Normalize.AutoJson.C78_violated"
   ],
   "note": "False of the code (C78_violated): a JSON object inside a JSON object is written as {} (C78_lost: always). C78_partial: it holds for documents of any depth without these; C78_declared_partial: also with declared properties. C78_keys and C78_nc_keys say which keys survive."
  },
  {
   "property": "C79",
   "status": "proved",
   "theorems": [
    "Normalize.Types.C79"
   ],
   "note": "For all dates; dateutil, if installed, is assumed to read ISO dates."
  },
  {
   "property": "C80",
   "status": "partial",
   "theorems": [
    "Normalize.Types.C80_dateutil_partial",
    "Normalize.Types.C80_fallback_partial",
    "Normalize.Types.C80_never_another",
    "Normalize.Types.C80_violated"
   ],
   "note": "False of the code without dateutil (C80_violated). C80_fallback_partial: exactly the times in whole seconds without a time zone survive then; C80_dateutil_partial: all with a dateutil that reads ISO texts. C80_never_another: none is ever read as another time."
  },
  {
   "property": "C81",
   "status": "proved",
   "theorems": [
    "Normalize.Types.C81",
    "Normalize.Types.C81_kept",
    "Normalize.Types.C81_dates",
    "Normalize.Types.C81_refused"
   ],
   "note": "C81 for all types and values; C81_kept, C81_dates and C81_refused say what becomes of them."
  },
  {
   "property": "C82",
   "status": "partial",
   "theorems": [
    "Normalize.Types.C82_partial",
    "Normalize.Types.C82_reads",
    "Normalize.Types.C82_violated"
   ],
   "note": "False of the code (C82_violated): the month 2001-02 is read as 2020-01-02. C82_partial: what is read is said by the text up to hyphens, T and spaces anywhere. C82_reads: all notations are read rightly."
  },
  {
   "property": "C83",
   "status": "proved",
   "theorems": [
    "Normalize.Types.C83"
   ],
   "note": "For all numbers and strings."
  },
  {
   "property": "C84",
   "status": "partial",
   "theorems": [
    "Normalize.Types.C84_partial",
    "Normalize.Types.C84_never",
    "Normalize.Types.C84_none",
    "Normalize.Types.C84_violated"
   ],
   "note": "False of the code (C84_violated): StringProperty turns everything into text (C84_never), None into 'None'. C84_partial: UnicodeProperty refuses."
  },
  {
   "property": "C85",
   "status": "partial",
   "theorems": [
    "Normalize.Reflect.C85_partial",
    "Normalize.Reflect.C85_violated",
    "Normalize.Reflect.C85_recursion",
    "Normalize.Reflect.C85_same"
   ],
   "note": "False of the code (C85_violated): reflect does not return for a recursive type. C85_partial: it returns for exactly the types without types within types without end; C85_recursion: for others any recursion limit is exceeded. Collections with a tuple of item types are outside: reflect raises TypeError for them."
  },
  {
   "property": "C86",
   "status": "partial",
   "theorems": [
    "Normalize.Reflect.C86_violated",
    "Normalize.Reflect.C86_partial",
    "Normalize.Reflect.C86_mentions_partial",
    "Normalize.Reflect.C86_records"
   ],
   "note": "False of the code (C86_violated): of a property that can be a Cat or a Dog only the first is described. C86_partial: apart from this the description is complete and true at any depth; C86_mentions_partial: all types reached so are in it."
  },
  {
   "property": "C87",
   "status": "partial",
   "theorems": [
    "Normalize.PropInit.C87_exact",
    "Normalize.PropInit.C87_raises",
    "Normalize.PropInit.C87_accepted",
    "Normalize.PropInit.C87_partial",
    "Normalize.PropInit.C87_violated",
    "Normalize.PropInit.C87_v1",
    "Normalize.PropInit.C87_coll",
    "Normalize.PropInit.C87_list",
    "Normalize.PropInit.C87_dict"
   ],
   "note": "False of the code (C87_violated): a type made with json_name= or lazy= raises TypeError when called, as JsonProperty.__init__ comes before the made one. C87_exact: what each argument is, whatever the order; C87_partial: the property holds where made types are based on the type that has the argument; C87_raises and C87_accepted say when there is a TypeError."
  },
  {
   "property": "C88",
   "status": "partial",
   "theorems": [
    "Normalize.CollProp.C88_kind_partial",
    "Normalize.CollProp.C88_items_partial",
    "Normalize.CollProp.C88_isa",
    "Normalize.CollProp.C88_items_violated",
    "Normalize.CollProp.C88_kind_violated"
   ],
   "note": "False of the code: ListProperty(of=Dog, isa=AnimalList) holds any animals (C88_items_violated), and two container classes of the same name share their generated types, so a ListProperty can hold dicts (C88_kind_violated). C88_kind_partial: the kind is right if no two container classes have one name; C88_items_partial: the items are right unless isa is given; C88_isa: what holds then."
  },
  {
   "property": "C89",
   "status": "proved",
   "theorems": [
    "Normalize.Diff.C89",
    "Normalize.Diff.C89_one_sided",
    "Normalize.Diff.C89_one_entry",
    "Normalize.Diff.C89_default",
    "Normalize.Diff.C89_diff"
   ],
   "note": "For any overridden methods that do not fail an assertion and make nothing of an unset slot (GoodHooks); C89_default proves that of the default methods."
  },
  {
   "property": "C90",
   "status": "partial",
   "theorems": [
    "Normalize.Diff.C90_partial",
    "Normalize.Diff.C90_nested_partial",
    "Normalize.Diff.C90_default_partial",
    "Normalize.Diff.C90_violated"
   ],
   "note": "False of lists: positions shift as items are removed (C90_violated). Proved for all differences that are about attributes of nested records (C90_partial), in particular for objects without lists, dicts and collections (C90_nested_partial)."
  },
  {
   "property": "C91",
   "status": "proved",
   "theorems": [
    "Normalize.Json.C91_says",
    "Normalize.Json.C91_reads",
    "Normalize.Json.C91",
    "Normalize.Json.C91_text",
    "Normalize.Json.C91_diff",
    "Normalize.Json.C91_distinct",
    "Normalize.Json.C91_refused"
   ],
   "note": "C91 and C91_text: written and read back; C91_says and C91_reads: each half against a description of the JSON form; C91_distinct: nothing is lost; C91_refused: other kinds; C91_diff: the diff method."
  },
  {
   "property": "C92",
   "status": "partial",
   "theorems": [
    "Normalize.Diff.C92_partial",
    "Normalize.Diff.C92_violated",
    "Normalize.Diff.C92_raises",
    "Normalize.Diff.C92_info"
   ],
   "note": "False of the code: MOVED differences are counted but not mentioned (C92_violated), and str() raises ValueError when a dict has the key None (C92_raises). C92_partial: it holds for all others with components whose text can be read back (C02). C92_info: one difference."
  },
  {
   "property": "C93",
   "status": "proved",
   "theorems": [
    "Normalize.Mem.C93",
    "Normalize.Mem.C93_post",
    "Normalize.Mem.C93_delete",
    "Normalize.Mem.C93_one",
    "Normalize.Mem.C93_delete_one",
    "Normalize.Mem.C93_value_violated"
   ],
   "note": "C93: any number of writes. C93_post, C93_delete: not even the value written is changed. C93_one, C93_delete_one: one object only. C93_value_violated: put with None can change the value it was given, when an item is part of another one."
  },
  {
   "property": "C94",
   "status": "proved",
   "theorems": [
    "Normalize.Mem.C94_get",
    "Normalize.Mem.C94_live",
    "Normalize.Mem.C94",
    "Normalize.Mem.C94_independent"
   ],
   "note": "C94_get, C94_live: FieldSelector.get. C94, C94_independent: MultiFieldSelector.get."
  },
  {
   "property": "C95",
   "status": "partial",
   "theorems": [
    "Normalize.Mem.C95_copy",
    "Normalize.Mem.C95_deepcopy",
    "Normalize.Mem.C95_violated",
    "Normalize.Mem.C95_partial",
    "Normalize.Mem.C95_delete"
   ],
   "note": "False of the code without copy=: MultiFieldSelector([-1], [0, 'n']) puts an item of the source into the target and then writes to it (C95_violated). C95_copy: it holds with copy= for every copying function, and C95_deepcopy: deepcopy is one. C95_partial: without copy= it holds for a single selector. C95_delete: MultiFieldSelector.delete."
  },
  {
   "property": "C96",
   "status": "proved",
   "theorems": [
    "Normalize.Mem.C96_get",
    "Normalize.Mem.C96_put",
    "Normalize.Mem.C96_delete",
    "Normalize.Mem.C96",
    "Normalize.Mem.C96_shared_violated"
   ],
   "note": "C96_get, C96_put, C96_delete: the memory follows the tree; C96: equal objects cannot be told apart. C96_shared_violated: for an object that has a part twice, writing to one place changes the other. post is not included."
  },
  {
   "property": "C97",
   "status": "partial",
   "theorems": [
    "Normalize.Repr.C97_partial",
    "Normalize.Repr.C97_distinct",
    "Normalize.Repr.C97_none",
    "Normalize.Repr.C97_string",
    "Normalize.Repr.C97_default_violated",
    "Normalize.Repr.C97_violated",
    "Normalize.Repr.C97_own_violated",
    "Normalize.Repr.C97_json_dict_violated"
   ],
   "note": "C97_partial: the round trip when no property is called self, init_dict, values or json_data (as far as the constructor takes them), every eager property has a value, and there is no JsonRecordDict. C97_distinct, C97_string. Each hypothesis is needed: C97_default_violated, C97_own_violated, C97_json_dict_violated."
  },
  {
   "property": "C98",
   "status": "proved",
   "theorems": [
    "Normalize.Repr.C98_fs",
    "Normalize.Repr.C98_mfs",
    "Normalize.Repr.C98_fs_distinct"
   ],
   "note": "C98_fs, C98_mfs, C98_fs_distinct. Uses the parser of C97."
  },
  {
   "property": "C99",
   "status": "partial",
   "theorems": [
    "Normalize.GenericThreads.C99_violated",
    "Normalize.GenericThreads.C99_other_type_violated",
    "Normalize.GenericThreads.C99_pickle_violated",
    "Normalize.GenericThreads.C99_partial",
    "Normalize.GenericThreads.C99_no_error",
    "Normalize.GenericThreads.C99_ends",
    "Normalize.GenericThreads.C99_made",
    "Normalize.GenericThreads.C99_settled",
    "Normalize.GenericThreads.C99_first",
    "Normalize.GenericThreads.C99_pickle",
    "Normalize.GenericThreads.C99_alone"
   ],
   "note": "C99_violated: two threads that ask at the same time may get different classes; C99_other_type_violated, C99_pickle_violated. For every schedule: the class is of the kind asked for and nothing is raised if item types have distinct names (C99_partial, C99_no_error, C99_pickle); once a first call has returned and none is under way all later calls agree (C99_settled, C99_first); each call ends in eight steps (C99_ends) and makes at most one class (C99_made); alone, it is the sequential function (C99_alone)."
  },
  {
   "property": "C100",
   "status": "partial",
   "theorems": [
    "Normalize.LazyThreads.C100_violated",
    "Normalize.LazyThreads.C100_read_only_violated",
    "Normalize.LazyThreads.C100_assignment_violated",
    "Normalize.LazyThreads.C100_delete_violated",
    "Normalize.LazyThreads.C100_partial",
    "Normalize.LazyThreads.C100_admitted",
    "Normalize.LazyThreads.C100_evaluations",
    "Normalize.LazyThreads.C100_ends",
    "Normalize.LazyThreads.C100_errors",
    "Normalize.LazyThreads.C100_set",
    "Normalize.LazyThreads.C100_read_only",
    "Normalize.LazyThreads.C100_alone"
   ],
   "note": "C100_violated: two first reads may evaluate the default twice and return different objects; C100_read_only_violated, C100_assignment_violated, C100_delete_violated. For every schedule: where values come from (C100_partial), that they are admitted (C100_admitted), one evaluation per read at most (C100_evaluations), which errors (C100_errors), that all end (C100_ends), and that once set and at rest the default is never evaluated again (C100_set, C100_read_only); alone, a read is that of the sequential model (C100_alone)."
  },
  {
   "property": "C101",
   "status": "partial",
   "theorems": [
    "Normalize.Props.C101_partial",
    "Normalize.Props.C101_identity",
    "Normalize.Props.C101_empty",
    "Normalize.Props.C101_string",
    "Normalize.Props.C101_violated",
    "Normalize.Props.C101_union_violated",
    "Normalize.Props.C101_diff"
   ],
   "note": "C101_violated: a record with an empty typed collection cannot be hashed (C101_empty: never, whatever else it holds); C101_union_violated: nor one with a string in a property that may hold a string or a collection (C101_string). C101_diff: lists of such records cannot be compared. What holds: C101_partial and C101_identity, without unions and empty collections."
  },
  {
   "property": "C102",
   "status": "partial",
   "theorems": [
    "Normalize.Props.C102_partial",
    "Normalize.Props.C102_broken",
    "Normalize.Props.C102_violated",
    "Normalize.Props.C102_format",
    "Normalize.Props.C102_created",
    "Normalize.Props.C102_missing_keyword",
    "Normalize.Props.C102_missing_positional",
    "Normalize.Props.C102_attribute_partial",
    "Normalize.Props.C102_attribute_violated",
    "Normalize.Props.C102_keyword",
    "Normalize.Props.C102_text_lost",
    "Normalize.Props.C102_copy_partial",
    "Normalize.Props.C102_copy_fails",
    "Normalize.Props.C102_copy_violated",
    "Normalize.Props.C102_subclass",
    "Normalize.Props.C102_catch",
    "Normalize.Props.C102_except"
   ],
   "note": "Proved: all raise statements but four raise what they say (C102_partial), messages say what their parts say for every template (C102_format, C102_created), the two format errors (C102_missing_keyword, C102_missing_positional), attributes (C102_attribute_partial), copies of exceptions raised without keywords (C102_copy_partial), class hierarchy (C102_subclass, C102_catch, C102_except). Violated: four raise statements end with AttributeError (C102_violated, C102_broken); `name` of FieldSelectorAttributeError is lost since python 3.10 (C102_attribute_violated); exceptions raised with keywords cannot be copied or pickled (C102_copy_violated, C102_copy_fails); the text passed with FieldSelectorException is not shown (C102_text_lost)."
  },
  {
   "property": "C103",
   "status": "partial",
   "theorems": [
    "Normalize.Props.C103_separate",
    "Normalize.Props.C103_list",
    "Normalize.Props.C103_dict",
    "Normalize.Props.C103_construct",
    "Normalize.Props.C103_diff",
    "Normalize.Props.C103_diff_reports",
    "Normalize.Props.C103_eq_violated",
    "Normalize.Props.C103_equal_but_differ",
    "Normalize.Props.C103_add_violated",
    "Normalize.Props.C103_json_violated",
    "Normalize.Props.C103_pickle_violated",
    "Normalize.Props.C103_compare_violated",
    "Normalize.Props.C103_add_partial",
    "Normalize.Props.C103_required",
    "Normalize.Props.C103_blind",
    "Normalize.Props.C103_eq_partial",
    "Normalize.Props.C103_json_partial",
    "Normalize.Props.C103_pickle_partial",
    "Normalize.Props.C103_pickle_generic"
   ],
   "note": "Proved: items and properties are independent for all histories (C103_separate, with C103_list and C103_dict linking to C34 and C35), construction (C103_construct), diff (C103_diff, C103_diff_reports), pickling of classes made with `class` (C103_pickle_partial), what + does instead (C103_add_partial, C103_required). Violated: == ignores the properties (C103_eq_violated) although diff reports them (C103_equal_but_differ); + , JSON and pickling of subclasses of list_of(...) forget them (C103_add_violated, C103_json_violated, C103_pickle_violated); == with a plain list raises PropertyRequired if a property is required (C103_compare_violated)."
  },
  {
   "property": "C104",
   "status": "partial",
   "theorems": [
    "Normalize.JsonThreads.C104_race",
    "Normalize.JsonThreads.C104_violated",
    "Normalize.JsonThreads.C104_types_violated",
    "Normalize.JsonThreads.C104_partial",
    "Normalize.JsonThreads.C104_warm",
    "Normalize.JsonThreads.C104_alone",
    "Normalize.JsonThreads.C104_leaves",
    "Normalize.JsonThreads.C104_ends"
   ],
   "note": "Proved: a thread on its own is always right (C104_alone) and leaves true caches (C104_leaves); under every schedule each object is marshalled rightly or raises KeyError, the latter only if its type was not in the second cache at the start (C104_partial), never once the types are known (C104_warm); every call ends within six of its own steps (C104_ends). Violated: two threads that marshal the first objects of a type at the same time: KeyError (C104_race, C104_violated); objects of one type that differ in having a json_data attribute (C104_types_violated)."
  },
  {
   "property": "C105",
   "status": "partial",
   "theorems": [
    "Normalize.EmptyThreads.C105_single_violated",
    "Normalize.EmptyThreads.C105_types",
    "Normalize.EmptyThreads.C105_raises",
    "Normalize.EmptyThreads.C105_single_partial",
    "Normalize.EmptyThreads.C105_kept",
    "Normalize.EmptyThreads.C105_ends"
   ],
   "note": "Proved: the types and the exceptions are those of a single thread under every schedule (C105_types, C105_raises), placeholders keep their types (C105_kept), every thread ends within seven of its own steps per operation (C105_ends), types that had a placeholder keep it as the only one (C105_single_partial). Violated: two threads may each make a placeholder for the same new types and go on with different objects (C105_single_violated), against the docstring 'Each set of types gets a single, persistent EmptyVal object'."
  },
  {
   "property": "C106",
   "status": "partial",
   "theorems": [
    "Normalize.TraitThreads.C106_traits",
    "Normalize.TraitThreads.C106_kept",
    "Normalize.TraitThreads.C106_race",
    "Normalize.TraitThreads.C106_violated",
    "Normalize.TraitThreads.C106_two_types",
    "Normalize.TraitThreads.C106_single_violated",
    "Normalize.TraitThreads.C106_clash_violated",
    "Normalize.TraitThreads.C106_after_partial",
    "Normalize.TraitThreads.C106_partial",
    "Normalize.TraitThreads.C106_alone",
    "Normalize.TraitThreads.C106_ends"
   ],
   "note": "Proved: the traits of what is returned, under every schedule (C106_traits); types are kept (C106_kept); every call ends under every schedule that goes on giving it turns (C106_ends); a thread alone does what the model of one thread does (C106_alone); no failures when the types are there from the beginning, or when a call begins after another one for the same traits has returned (C106_partial, C106_after_partial). Violated: spurious PropertyTypeClash and PropertyTypeMixinFailure (C106_race, C106_violated), two types for the same traits (C106_single_violated), two class statements with the same traits that both succeed (C106_clash_violated)."
  },
  {
   "property": "C107",
   "status": "partial",
   "theorems": [
    "Normalize.JsonMem.C107",
    "Normalize.JsonMem.C107_separate",
    "Normalize.JsonMem.C107_same",
    "Normalize.JsonMem.C107_again",
    "Normalize.JsonMem.C107_unchanged_violated",
    "Normalize.JsonMem.C107_ends_violated"
   ],
   "note": "Proved for every memory: only lazy properties get values, and the result is a document of new objects only (C107); without lazy properties nothing changes and the result is separate from everything that existed (C107_separate); the same outcome as for trees, with no shared parts (C107_same); two calls give separate documents (C107_again). Violated: to_json sets lazy properties of the record (C107_unchanged_violated); a record that is part of itself cannot be marshalled (C107_ends_violated)."
  },
  {
   "property": "C108",
   "status": "partial",
   "theorems": [
    "Normalize.JsonInMem.C108",
    "Normalize.JsonInMem.C108_partial",
    "Normalize.JsonInMem.C108_apart_partial",
    "Normalize.JsonInMem.C108_same",
    "Normalize.JsonInMem.C108_violated",
    "Normalize.JsonInMem.C108_apart_violated"
   ],
   "note": "Proved for every memory: nothing that existed changes, and the record consists of new objects, parts of the data and the default objects (C108). Where every property is typed with record classes or types of objects without parts, the record is all new, copies of unknown keys included (C108_partial). Where defaults are new objects, records made from separate data are separate (C108_apart_partial). For objects that look like a JSON value, shared or not, the outcome is the one on trees: both fail, or the record made looks like the one of the tree (C108_same). Violated: an untyped property holds the very list in the data (C108_violated); with default=[] all records share the list (C108_apart_violated)."
  },
  {
   "property": "C109",
   "status": "partial",
   "theorems": [
    "Normalize.Observe.C109",
    "Normalize.Observe.C109_stores",
    "Normalize.Observe.C109_shown_partial",
    "Normalize.Observe.C109_later_partial",
    "Normalize.Observe.C109_shown_violated",
    "Normalize.Observe.C109_later_violated",
    "Normalize.Observe.C109_results_violated"
   ],
   "note": "Proved: after any sequence of ==, hash/str, to_json, diff, visit and attribute reads, each of these returns or raises what it would have at the start (C109); they only store values of unset lazy attributes, those that reading gives (C109_stores); with no unset lazy attribute repr and pickles are unchanged (C109_shown_partial); with assignments and deletions of attributes that are not lazy and that no lazy default reads, a history is the same without them (C109_later_partial). Violated: comparing makes lazy attributes appear in repr and in pickles (C109_shown_violated); a record that was compared keeps the stale lazy value when an attribute it was computed from is assigned (C109_later_violated); deleting a lazy attribute raises KeyError unless something looked at it before (C109_results_violated). Python's recursion limit is not part of the claim."
  },
  {
   "property": "C110",
   "status": "partial",
   "theorems": [
    "Normalize.Slots.C110_violated",
    "Normalize.Slots.C110_accepted_violated",
    "Normalize.Slots.C110_partial"
   ],
   "note": "Violated: a default method that reads another attribute with a default sees it unset or set depending on the set order, so the constructor raises AttributeError in some processes only (C110_accepted_violated), or, with V1Property, silently makes a different record (C110_violated). Proved: if the defaults only read attributes that are passed or have no default, and lazy attributes that depend on nothing else, every order refuses the arguments or every order stores the same values, computed lazy attributes included (C110_partial). Defaults that assign or delete attributes are left out. The code comments that only lazy properties should have default methods, without enforcing it."
  },
  {
   "property": "C111",
   "status": "partial",
   "theorems": [
    "Normalize.Sig.C111_default_violated",
    "Normalize.Sig.C111_default_kwonly_violated",
    "Normalize.Sig.C111_default_partial",
    "Normalize.Sig.C111_class_gets_record",
    "Normalize.Sig.C111_compare_violated",
    "Normalize.Sig.C111_clean_up_violated",
    "Normalize.Sig.C111_compare_partial",
    "Normalize.Sig.C111_json_violated",
    "Normalize.Sig.C111_extraneous_violated",
    "Normalize.Sig.C111_json_partial"
   ],
   "note": "Violated: bound methods, classes and callable objects are inspected with the parameter that python fills in, so default=obj.method is accepted and fails when used (C111_default_violated), default=SomeClass is given the record (C111_class_gets_record), compare_as=SomeClass gets one argument too many (C111_compare_violated); required keyword-only parameters are not noticed (C111_default_kwonly_violated); compare_as=str.lower is applied to the record (C111_clean_up_violated); a json_data method with any keyword-only parameter is given extraneous= (C111_json_violated) and one with **options is not (C111_extraneous_violated). Proved for functions whose keyword-only parameters have defaults: exactly the functions that can be called neither with nothing nor with the record are refused, and the others are called rightly (C111_default_partial); the same for compare_as (C111_compare_partial); and for json_data methods without other keyword-only parameters (C111_json_partial)."
  },
  {
   "property": "C112",
   "status": "partial",
   "theorems": [
    "Normalize.Diff.C112_violated",
    "Normalize.Diff.C112_partial"
   ],
   "note": "Violated: if a selector names a member of a collection of records by its key and then a part of it (such as people.0.name), that member is not compared at all, because its key is looked up with `fs in compare_filter`, which is true only of members selected as a whole (C112_violated). Proved at any depth for everything else: touched properties agree, simple containers have the same normalised items, and the members that are selected as a whole or by a wildcard can be paired one to one such that each pair agrees (C112_partial). Functions given as compare_as may change values without parts (CompareFlat)."
  },
  {
   "property": "C113",
   "status": "partial",
   "theorems": [
    "Normalize.Diff.C113_violated",
    "Normalize.Diff.C113_partial",
    "Normalize.Diff.C113_rule",
    "Normalize.Diff.C113_records_violated"
   ],
   "note": "Violated: with extraneous=True the extraneous fields are compared, but an item that has a value only in one of these is left out (C113_violated); and an item is left out although a field of it holds a record, if that record has nothing in its own primary key (C113_records_violated). Proved: exactly which items are left out without extraneous: those all of whose key fields are None, empty text or not set, or hold a record or collection of which the same is true (C113_rule, for properties with at most one record type); for records none of whose fields is declared to hold records, these are the items the documentation says (C113_partial). Missing: duck_type and filters."
  },
  {
   "property": "C114",
   "status": "partial",
   "theorems": [
    "Normalize.Props.C114_partial",
    "Normalize.Props.C114_violated",
    "Normalize.Props.C114_subclass_violated",
    "Normalize.Props.C114_items_violated"
   ],
   "note": "Violated: dict collections with the same values under different keys have the same identity (C114_violated), as have records of a subclass that differ in what the subclass adds (C114_subclass_violated), and members of different classes of a collection with several item types (C114_items_violated). Proved for everything else (C114_partial); properties with unions of record types are in C29."
  },
  {
   "property": "C115",
   "status": "partial",
   "theorems": [
    "Normalize.Props.C115_partial",
    "Normalize.Props.C115_text",
    "Normalize.Props.C115_key",
    "Normalize.Props.C115_prints_violated",
    "Normalize.Props.C115_prints_partial",
    "Normalize.Props.C115_plain",
    "Normalize.Props.C115_list",
    "Normalize.Props.C115_violated"
   ],
   "note": "Violated: of a key of more than 32 characters only 30 are printed, also of a declared primary key (C115_violated); str() of a record with an empty typed collection raises (C115_prints_violated). Proved: short keys are told apart (C115_partial), what the text is (C115_text), that it depends on the identifying properties only (C115_key), when it can be printed (C115_prints_partial), that python's repr of plain values meets the assumption (C115_plain), and that lists show their length (C115_list)."
  },
  {
   "property": "C116",
   "status": "partial",
   "theorems": [
    "Normalize.Diff.C116_symm",
    "Normalize.Diff.C116_partial",
    "Normalize.Diff.C116_typed",
    "Normalize.Diff.C116_violated",
    "Normalize.Diff.C116_types_violated",
    "Normalize.Diff.C116_default_violated"
   ],
   "note": "Violated: with the default options, records whose lists are in another order are only found to be the same if fuzzy matching pairs them, which is not transitive (C116_default_violated); with ignore_empty_slots an unset list is the same as an empty list and as a list of empty records, which differ (C116_violated); where lists of different classes meet, they are compared in order, while lists of one class are not (C116_types_violated). Proved without ignore_empty_slots for objects in which equal parts are of one type (C116_partial), which holds if all containers are typed and there is one class per item type (C116_typed). Symmetry also with ignore_empty_slots (C116_symm). Fuzzy matching is left out, except with recurse, which does not use it. Functions given as compare_as may change values without parts (CompareFlat)."
  },
  {
   "property": "C117",
   "status": "partial",
   "theorems": [
    "Normalize.Diff.C117_partial",
    "Normalize.Diff.C117_flat",
    "Normalize.Diff.C117_violated"
   ],
   "note": "Violated: == of dict collections does not depend on the order of insertion, but members with the same identity are compared in that order (C117_violated). Proved where dicts have their keys in the same order on both sides, collections are of the same class and equal members have equal identities (C117_partial); that is so if items of lists and dicts have no parts and records in collections are identified by values without parts (C117_flat). Assumes that values without parts are equal only if they are the same (the diff model compares identities structurally); the extraneous option is left out. Functions given as compare_as may change values without parts, if they look at the value only and do not raise (ComparePure)."
  },
  {
   "property": "C118",
   "status": "partial",
   "theorems": [
    "Normalize.Diff.C118_partial",
    "Normalize.Diff.C118_violated"
   ],
   "note": "Violated: items of plain lists, dicts and collections of values that cannot be hashed are replaced by their text, so [\"[1]\"] and [[1]] have no differences (C118_violated). Proved where these items can be hashed (C118_partial). Texts are compared as they are; compare_as is left out."
  },
  {
   "property": "C119",
   "status": "partial",
   "theorems": [
    "Normalize.Diff.C119_partial",
    "Normalize.Diff.C119_violated",
    "Normalize.Diff.C119_wild_violated"
   ],
   "note": "Violated: an item picked by its index has another index in the copy (C119_violated), and record_id subscripts the selectors with the index of an item, which gives nothing where they have a wildcard, so nested wildcards are ignored in identities (C119_wild_violated). Proved where the selectors go through records by name and through collections of records by wildcard, select everything else whole, select whole what identifies the members of collections (the primary key, if all of it is selected), and selected attributes that are unset or None are so in a new record (C119_partial). Functions given as compare_as may change values without parts, if they look at the value only and do not raise (ComparePure)."
  },
  {
   "property": "C120",
   "status": "partial",
   "theorems": [
    "Normalize.Diff.C120_partial",
    "Normalize.Diff.C120_tuple",
    "Normalize.Diff.C120_violated",
    "Normalize.Diff.C120_mixed",
    "Normalize.Diff.C120_mixed_violated"
   ],
   "note": "Violated: a collection of records in which an identity contains an empty typed collection (C120_violated), a collection that declares several item types (C120_tuple), and two collections with items of the same identity of which one is of a class that extends the other's (C120_mixed, C120_mixed_violated) cannot be compared. Proved, with text normalisation and all the ignore options, where none of this occurs and no property has a union with a record class (C120_partial)."
  },
  {
   "property": "C121",
   "status": "partial",
   "theorems": [
    "Normalize.Visit.C121_place",
    "Normalize.Visit.C121_accepted",
    "Normalize.Visit.C121_partial",
    "Normalize.Visit.C121_violated"
   ],
   "note": "Violated: a text given for a collection passes the check for sequences, and the exception is a CollectionCoerceError without the place (C121_violated). Proved: the right exception for all other data (C121_partial), that the place named is a place of malformed data (C121_place), and that cast returns only if everything needed is well-formed, at any depth (C121_accepted)."
  },
  {
   "property": "C122",
   "status": "partial",
   "theorems": [
    "Normalize.Visit.C122_partial",
    "Normalize.Visit.C122_other",
    "Normalize.Visit.C122_slots",
    "Normalize.Visit.C122_slots_other",
    "Normalize.Visit.C122_violated"
   ],
   "note": "Violated: data that is no mapping makes grok raise VisitorGrokRecordError, which is no TypeError, so that the other types are not tried (C122_violated). Proved where the classes before raise a TypeError, which JsonConversionError and the coercion errors are (C122_partial), and for data that all classes refuse in this way (C122_other). Also for data with any number of slots, at any place in the data (C122_slots, C122_slots_other)."
  },
  {
   "property": "C123",
   "status": "proved",
   "theorems": [
    "Normalize.Observe.C123",
    "Normalize.Observe.C123_attr"
   ],
   "note": "Results only: when an operation raises, the theorem says nothing (C109 says that it raises the same later). Where to_json swallows an AttributeError from inside a record in an attribute, the specification says that the attribute is not written."
  },
  {
   "property": "C124",
   "status": "proved",
   "theorems": [
    "Normalize.Observe.C124"
   ],
   "note": "The world's None must not be a record."
  },
  {
   "property": "C125",
   "status": "partial",
   "theorems": [
    "Normalize.Traits.C125_missing",
    "Normalize.Traits.C125_two_partial",
    "Normalize.Traits.C125_errors",
    "Normalize.Traits.C125_violated"
   ],
   "note": "Violated: Property(json_name='x', lazy=True, default=None) raises a KeyError, since the type that is made is of the last type looked at and not of the one chosen (C125_violated). Proved: PropertyTypeMixinNotPossible is raised exactly if a trait is missing, and nothing is made (C125_missing); with at most two wanted traits composing succeeds (C125_two_partial); and the other exceptions are PropertyTypeMixinFailure, PropertyTypeClash, KeyError and TypeError, never ValueError (C125_errors). Missing: which sets of three or more traits can be composed."
  },
  {
   "property": "C126",
   "status": "partial",
   "theorems": [
    "Normalize.Repr.C126_partial",
    "Normalize.Repr.C126_tuple",
    "Normalize.Repr.C126_one_member",
    "Normalize.Repr.C126_violated"
   ],
   "note": "Violated: a tuple as a positional argument makes repr raise TypeError, since \"%r\" % x takes it for the arguments of the format (C126_violated, C126_tuple); a tuple with one member is shown as its member (C126_one_member). Proved: without such tuples, and for arguments whose own repr evaluates to them (C97), the exception is created again (C126_partial). Missing: keyword arguments that are tuples."
  },
  {
   "property": "C127",
   "status": "partial",
   "theorems": [
    "Normalize.Ident.C127_empty",
    "Normalize.Ident.C127_partial",
    "Normalize.Ident.C127_wildcard",
    "Normalize.Ident.C127_violated",
    "Normalize.Ident.C127_names_violated"
   ],
   "note": "Violated: a wildcard is lost, so that whole items count where a part of every item is selected (C127_wildcard, C127_violated); and a record in a property without a type counts whole (C127_names_violated). Proved: for selectors that go through records by name and through collections by index or key, into properties whose types are records with a selected property that identifies them (C127_partial); the empty selector (C127_empty). Missing: plain lists and dicts, normalize_object_slot."
  },
  {
   "property": "C128",
   "status": "partial",
   "theorems": [
    "Normalize.Ident.C128_rule",
    "Normalize.Ident.C128_partial",
    "Normalize.Ident.C128_disjoint",
    "Normalize.Ident.C128_violated"
   ],
   "note": "Violated: the held record is taken as each of the types, and the identity with most parts that are set counts, so that the primary key of a person is ignored where a company, which has no primary key, would be allowed (C128_violated). Proved: which identity counts, exactly (C128_rule); it is the record's own if more parts of it are set than under the other types (C128_partial), in particular if the other types are identified by attributes that the record does not have (C128_disjoint)."
  },
  {
   "property": "C129",
   "status": "partial",
   "theorems": [
    "Normalize.Diff.C129_partial",
    "Normalize.Diff.C129_violated"
   ],
   "note": "Violated: where the source has no record on the way to a selected attribute, patch deletes the attribute and leaves the record in the target, which the comparison then reports (C129_violated). Proved: no differences, in either direction, if the selectors go through both objects along records of the same classes (C129_partial). Assumes that unset attributes cannot be read. Functions given as compare_as may change values without parts, if they look at the value only and do not raise (ComparePure)."
  },
  {
   "property": "C130",
   "status": "partial",
   "theorems": [
    "Normalize.Diff.C130_iff",
    "Normalize.Diff.C130_sound",
    "Normalize.Diff.C130_partial",
    "Normalize.Diff.C130_flat",
    "Normalize.Diff.C130_violated",
    "Normalize.Diff.C130_violated_key"
   ],
   "note": "The first sentence is proved (C130_iff, C130_sound) (equal objects: see C117, which covers recurse). The second is violated: members of a dict collection with the same identity are matched in the order of insertion without recurse (C130_violated), and an extraneous primary key keeps records apart without recurse (C130_violated_key). Proved where records are collected in lists and members that agree have the same identity (C130_partial), which holds of records identified by values without parts (C130_flat). Functions given as compare_as may change values without parts (CompareFlat)."
  },
  {
   "property": "C131",
   "status": "partial",
   "theorems": [
    "Normalize.Diff.C131_partial",
    "Normalize.Diff.C131_violated",
    "Normalize.Diff.C131_visit_partial"
   ],
   "note": "Violated: extraneous properties are not written with extraneous=False, so what is read back is equal, but if records are identified by one they are not matched (C131_violated). Proved (C131_partial) if lists and dicts of values have items without parts and the records in collections are identified by values without parts that are not extraneous; likewise for cast(T, visit(x)) under the conditions of C53 (C131_visit_partial). Missing: that the object read back has no impossible values is assumed. Functions given as compare_as may change values without parts, if they look at the value only and do not raise (ComparePure)."
  },
  {
   "property": "C132",
   "status": "partial",
   "theorems": [
    "Normalize.SelObj.C132_partial",
    "Normalize.SelObj.C132_violated",
    "Normalize.SelObj.C132_shared",
    "Normalize.SelObj.C132_hash_violated",
    "Normalize.SelObj.C132_dict",
    "Normalize.SelObj.C132_compare_violated",
    "Normalize.SelObj.C132_compare_partial"
   ],
   "note": "Proved for programs without copy.copy (C132_partial), also that a dict finds a selector by which object it is (C132_dict), and what == and in do (C132_compare_partial). Violated: copy.copy gives a selector that shares its list with the original (C132_violated; C132_shared says exactly what is shared), equal selectors have different hashes (C132_hash_violated), and == with anything that is no selector raises TypeError (C132_compare_violated)."
  },
  {
   "property": "C133",
   "status": "partial",
   "theorems": [
    "Normalize.DiffLive.C133_partial",
    "Normalize.DiffLive.C133_distinct",
    "Normalize.DiffLive.C133_violated",
    "Normalize.DiffLive.C133_diff_partial"
   ],
   "note": "Violated: `other` of an item that was removed and `base` of an item that was added are the selectors of the container that the generator goes on to use, and at the top both sides are one object (C133_violated). Proved for consumers that change only the other selectors they got and those they made, without copy.copy (C133_partial, C133_diff_partial); these are all different objects (C133_distinct). C133_diff_partial also shows that without a filter what a comparison reports is the same at whatever paths it starts. Comparisons with a filter are left out."
  },
  {
   "property": "C134",
   "status": "partial",
   "theorems": [
    "Normalize.VisitGen.C134_partial",
    "Normalize.VisitGen.C134_prompt",
    "Normalize.VisitGen.C134_violated",
    "Normalize.VisitGen.C134_list_violated",
    "Normalize.VisitGen.C134_filter_violated"
   ],
   "note": "Violated: the generators copy the visitor when they are asked for their first item, not when they are made, so if reduce returns its generator and it is consumed when the visit has gone on, apply sees a path without the way to the record (C134_violated); in a collection even if it is consumed at once (C134_list_violated); the filter is asked about the same wrong path and lets through what it should leave out (C134_filter_violated). Proved if no generator is started after the visit has left its item (C134_partial), in particular if the functions start all generators they are given before they return, whatever happens to them afterwards (C134_prompt). Exceptions are left out, and a generator of a union type is not abandoned for the next type."
  },
  {
   "property": "C135",
   "status": "partial",
   "theorems": [
    "Normalize.Empty.C135_violated",
    "Normalize.Empty.C135_partial",
    "Normalize.Empty.C135_tuple"
   ],
   "note": "Violated: the docstring says that each set of types gets a single object, but the cache is keyed by the tuple, so placeholder((A, B)) and placeholder((B, A)) are different objects (C135_violated). Proved: the same tuple always gets the same object (C135_tuple), and placeholders of the same set of types, in any two histories, behave alike: every chain of operations raises the same on both or comes to placeholders of the same set of types (C135_partial)."
  },
  {
   "property": "C136",
   "status": "partial",
   "theorems": [
    "Normalize.Types.C136_partial",
    "Normalize.Types.C136_fraction",
    "Normalize.Types.C136_refused",
    "Normalize.Types.C136_text",
    "Normalize.Types.C136_number",
    "Normalize.Types.C136_violated"
   ],
   "note": "Violated: 2.75 is taken as 2, silently (C136_violated). Proved: whole numbers of any type are taken and stay the same number (C136_partial); other floats and decimals lose exactly what comes after the point, and nan and the infinities are refused (C136_fraction); the texts that are taken are exactly those that say a whole number - digits with single underscores between them, a sign, white space around - and as that number (C136_text); so does NumberProperty with these texts, and all other texts are left to float() (C136_number); everything else is refused (C136_refused). That int() of a float drops the fraction is assumed of python; what float() returns is not modelled."
  },
  {
   "property": "C137",
   "status": "partial",
   "theorems": [
    "Normalize.C137_violated",
    "Normalize.C137_patch_violated",
    "Normalize.C137_iter",
    "Normalize.C137_delete_partial",
    "Normalize.C137_delete_returns_partial",
    "Normalize.C137_patch_partial",
    "Normalize.C137_get_partial"
   ],
   "note": "Violated: items of a list are deleted one after the other, so [0] and [1] delete the first and the third, but [1] and [0] the first and the second (C137_violated); patch fills an empty list from the start, or raises (C137_patch_violated). Proved: iterating gives exactly the selectors that no other selector points around, each once (C137_iter), so the order is all that can differ; delete leaves the same at every place that is not on the way to a selected one, if no selected one is an item of a list or has a wildcard (C137_delete_partial), and both return or both raise without a change (C137_delete_returns_partial); patch likewise, where C20_patch_partial applies (C137_patch_partial); get, where C18_kept_partial applies (C137_get_partial). Missing: that the results are equal as a whole, and which exception is raised."
  },
  {
   "property": "C138",
   "status": "partial",
   "theorems": [
    "Normalize.Json.C138_partial",
    "Normalize.Json.C138_refused",
    "Normalize.Json.C138_key_error",
    "Normalize.Json.C138_written",
    "Normalize.Json.C138_violated"
   ],
   "note": "Violated: if two properties have the same JSON name and the key is in the document, the second removal of the key from the set of unknown keys raises a bare KeyError (C138_violated). Proved: if no key of the document is the name of two properties, every exception is a JsonConversionError that starts with the key of a property (C138_partial); otherwise an exception is always raised, so no such document can be read (C138_refused); and a bare exception is always that KeyError (C138_key_error). Such objects are written all the same, with the value of the last property of that name and nothing of the others (C138_written)."
  },
  {
   "property": "C139",
   "status": "partial",
   "theorems": [
    "Normalize.CollSet.C139_safe",
    "Normalize.CollSet.C139_partial",
    "Normalize.CollSet.C139_same",
    "Normalize.CollSet.C139_v1",
    "Normalize.CollSet.C139_v1_stored",
    "Normalize.CollSet.C139_v1_same",
    "Normalize.CollSet.C139_violated",
    "Normalize.CollSet.C139_refused"
   ],
   "note": "Violated: a collection property converts the value and then calls the setter that converts it again, so check is called twice (C139_violated), and a check that takes each value once refuses everything (C139_refused). Proved: C139 for other properties (C139_safe); for collection properties the calls are those of another property and then at most one more check, of the same value, and if the assignment works it stores what another property would (C139_partial); with a check that says the same when asked once more the results are the same (C139_same). V1 properties, whose setter catches the exception of a refused value, make the calls of the property they extend and no more (C139_v1), store what it would, and empty the slot exactly if the value was refused with a CoercionError, is None or the v1_none, and there was a value (C139_v1_stored); with a steady check collection properties end up as others would (C139_v1_same)."
  },
  {
   "property": "C140",
   "status": "partial",
   "theorems": [
    "Normalize.Mem.C140_partial",
    "Normalize.Mem.C140_same",
    "Normalize.Mem.C140_violated"
   ],
   "note": "Violated: the value is not copied, so that a value that can be changed is a part of all items afterwards (C140_violated); for attributes without a type every item holds the very object that was passed (C140_same). Proved for values without parts, like texts and numbers, for all classes, selectors and whether or not an exception ends the loop (C140_partial)."
  },
  {
   "property": "C141",
   "status": "partial",
   "theorems": [
    "Normalize.DuckThreads.C141_found_partial",
    "Normalize.DuckThreads.C141_partial",
    "Normalize.DuckThreads.C141_raises",
    "Normalize.DuckThreads.C141_violated"
   ],
   "note": "Violated: the set of the types that have an argument is iterated over while other threads may add to it, which python answers with RuntimeError (C141_violated). Proved: if the loop comes to its end, what was found is what there was at its start (C141_found_partial); the exception is raised only if a new type that has the argument was made meanwhile (C141_partial), and always then (C141_raises)."
  },
  {
   "property": "C142",
   "status": "partial",
   "theorems": [
    "Normalize.CompleteMfs.C142_class_partial",
    "Normalize.CompleteMfs.C142_same_partial",
    "Normalize.CompleteMfs.C142_violated"
   ],
   "note": "Violated: two threads that both find no selector make one each, and return different ones (C142_violated). Proved for all schedules: the selector returned is always an instance of the class that was asked, never of a base class (C142_class_partial); and once a class keeps a selector and no call is between the test and the assignment, all later calls return that one (C142_same_partial), so that there is one for a single thread."
  },
  {
   "property": "C143",
   "status": "partial",
   "theorems": [
    "Normalize.SoftGet.C143_value_partial",
    "Normalize.SoftGet.C143_empty_partial",
    "Normalize.SoftGet.C143_error_partial",
    "Normalize.SoftGet.C143_partial",
    "Normalize.SoftGet.C143_lazy_partial",
    "Normalize.SoftGet.C143_again_partial",
    "Normalize.SoftGet.C143_violated"
   ],
   "note": "Violated: a lazy property whose function reads an attribute that is not set raises AttributeError about that other attribute, and foo0 is then a placeholder (C143_violated). Proved for all classes and states: foo0 gives a value exactly if foo does, the same and with the same effects (C143_value_partial); it is a placeholder, for the type of the property, exactly if foo raises AttributeError (C143_empty_partial); all other exceptions are passed on (C143_error_partial); and for properties that are not lazy it is a placeholder exactly if the slot is empty, unless the property is a V1Property, which gives its v1_none (C143_partial). For a lazy property whose default and check raise no AttributeError and let none through, foo0 is never a placeholder (C143_lazy_partial); and once foo0 has given a value, it gives the same again without calling any function (C143_again_partial). Access through the class is not modelled."
  }
 ]
}