# Axioms each theorem depends on

As `#print axioms` reports for every theorem named in MANIFEST.json (generated from the build). All are axioms of Lean itself.

## propext, Classical.choice, Quot.sound (409 theorems)

`C01_wire`, `C03_read`, `C04_varlen16`, `C04_varlen32`, `C05_read32`, `C05_read64`, `C06_varlen16`, `C06_varlen32`, `C06_varlen64`, `C08_any_six_bytes`, `C08_roundtrip`, `C09_introduction_request`, `C09_introduction_response`, `C09_puncture`, `C09_puncture_request`, `C10_read`, `C11_peek`, `C11_pop`, `C11_shape`, `C12_partial`, `C14_read`, `C15_partial`, `C16`, `C17_auth`, `C17_false`, `C17_partial`, `C18_read`, `C18_wire`, `C19_read`, `C19_wire`, `C20_request_canonical`, `C20_request_decode`, `C20_request_ignores_bits`, `C20_response_canonical`, `C20_response_decode`, `C20_response_ignores_bits`, `C20_short`, `C21_puncture`, `C21_puncture_any`, `C21_puncture_request`, `C21_puncture_request_any`, `C21_time`, `C21_time_any`, `C22_any_depth`, `C22_depth_limit`, `C22_one_level`, `C24`, `C24_last`, `C25`, `C25_crate_fields`, `C25_last`, `C28`, `C29`, `C29_received`, `C32`, `C32_last`, `C34_repeated`, `C35_false`, `C35_long_enough_partial`, `C35_partial`, `C39`, `C39_others`, `C40`, `C41`, `C42`, `C42_converse`, `C42_mid_length`, `C43`, `C43_always`, `C43_complete`, `C44`, `C44_calls`, `C45`, `C46`, `C46_causes`, `C47_exact_partial`, `C47_false_burst`, `C47_lag`, `C47_one_each`, `C47_partial`, `C47_start`, `C50`, `C50_infix`, `C50_panics`, `C50_raises`, `C50_signed`, `C51_agrees`, `C52`, `C52_history`, `C52_last`, `C52_no_panics`, `C52_progress`, `C52_signed`, `C53`, `C53_bind`, `C53_buffer`, `C54`, `C54_injective`, `C55`, `C56`, `C56_packet`, `C57`, `C57_last`, `C58`, `C58_one`, `C59`, `C59_progress`, `C60`, `C60_addresses`, `C60_noLeak`, `C60_onePerPort`, `C60_start`, `C60_taken`, `C61`, `C61_bound`, `C61_delivery`, `C61_progress`, `C62`, `C62_community`, `C62_exact`, `C62_once`, `C62_sender`, `C63`, `C63_network`, `C64_exact_types`, `C64_map`, `C64_map_false`, `C64_map_roundtrip`, `C65`, `C65_empty_elements`, `C65_fails`, `C66`, `C66_arrive`, `C66_bind`, `C66_bind_instance`, `C66_call`, `C66_closed`, `C66_complete`, `C66_life`, `C66_one_socket`, `C66_order`, `C66_start`, `C66_start_instance`, `C66_waiting`, `C67_never_read`, `C67_reply`, `C67_source`, `C67_start_ends_sending`, `C67_unreached`, `C68_add`, `C68_auth`, `C68_forward`, `C68_header`, `C68_read`, `C68_read_derived`, `C68_v6`, `C70_reached`, `C71`, `C71_delivered`, `C72`, `C72_at_most`, `C72_no_memory`, `C74_forever`, `C74_log`, `C75`, `C76`, `C76_failures`, `C77`, `C77_fold`, `C77_step`, `C78`, `C78_at_most`, `C78_authentic`, `C78_delivery`, `C78_flat`, `C78_source`, `C79`, `C79_alone`, `C79_rest`, `C79_taken`, `C80`, `C80_read`, `C80_read_iff`, `C80_read_last`, `C80_reject`, `C81`, `C81_alone`, `C81_lives`, `C81_taken`, `C82`, `C82_alone`, `C82_taken`, `C83`, `C83_cursor`, `C83_history`, `C83_reads`, `C84_attack`, `C84_happens`, `C84_immune`, `C84_last`, `C85`, `C85_auth_field`, `C85_closed`, `C85_cursor`, `C85_derived`, `C85_equal`, `C85_fields`, `C85_inside`, `C85_last`, `C85_no_panic`, `C85_safe`, `C86`, `C86_earlier`, `C86_ends`, `C86_first`, `C86_possible`, `C86_refines`, `C87_derived`, `C87_empty`, `C87_next`, `C87_next_same`, `C87_same`, `C88`, `C88_abort`, `C88_cursor`, `C88_deep`, `C88_enough`, `C88_stack`, `C88_write`, `C88_write_abort`, `C89`, `C89_blocked`, `C89_bound`, `C89_buried`, `C89_delivery`, `C89_ends`, `C89_progress`, `C89_refines`, `C89_rest`, `C89_stack`, `C90`, `C90_alone`, `C90_delivery`, `C90_endless_starts`, `C91`, `C91_community`, `C91_finite`, `C91_signed`, `C92_derived`, `C92_empty`, `C92_next`, `C92_next_same`, `C92_reserve`, `C92_same`, `C92_success`, `C93`, `C93_auth`, `C93_endless`, `C93_iff`, `C93_meaning`, `C93_message`, `C93_steps`, `C94`, `C94_build`, `C94_linear`, `C94_sign`, `C95`, `C95_attained`, `C95_bounded`, `C95_keeper`, `C95_peak`, `C95_pool`, `C95_pool_accounts`, `C95_total`, `C96`, `C96_at_most`, `C96_authentic`, `C96_concurrent`, `C96_flat`, `C96_origin`, `C96_pool`, `C96_process`, `C96_size`, `C96_source`, `C97`, `C97_alone`, `C97_arrived`, `C97_community`, `C97_lives`, `C97_signed`, `C98_advisory`, `C98_questions`, `C99`, `C99_crate`, `C99_forward`, `C99_middle`, `C99_open`, `C99_panic`, `C99_payloads`, `C99_uncaught`, `C100`, `C100_rest`, `C100_stream`, `C101_aligned`, `C101_memory`, `C102`, `C102_community`, `C102_rest`, `C102_stream`, `C103`, `C103_communities`, `C103_every`, `C103_fleet`, `C103_independent`, `C103_one`, `C103_others`, `C103_possible`, `C103_race`, `C104`, `C104_after`, `C104_one`, `C104_panic`, `C105`, `C105_memory`, `C105_progress`, `C105_queues`, `C105_refines`, `C105_running`, `C106`, `C106_always`, `C106_blind`, `C106_bound`, `C106_due`, `C106_errors`, `C106_lifts`, `C106_one`, `C106_payload`, `C106_refines`, `C106_warnings`, `C107`, `C107_cross`, `C107_ends`, `C107_full`, `C107_knot`, `C107_meet`, `C107_refines`, `C107_rest`, `C107_running`, `C107_single`, `C107_stuck`, `C107_wait`, `C108`, `C108_count`, `C108_frozen`, `C109`, `C109_count`, `C109_ended`, `C109_ends`, `C109_fork`, `C109_held`, `C109_join`, `C109_poison`, `C109_rest`, `C109_self`, `C109_stuck`, `C110`, `C110_finish`, `C110_order`, `C110_packets`, `C110_progress`, `C110_rest`, `C110_stuck`, `C110_whole`, `C111`, `C111_possible`, `C111_signed`, `C111_until`, `C112`, `C112_again`, `C112_broken`, `C112_broken_late`, `C112_configured`, `C112_late`, `C112_stays`, `C112_threads`, `C112_through`, `C112_whose`, `C113_enough`, `C113_through`, `C114`, `C114_packet`, `C114_prefix`, `C114_signed`, `C115`, `C115_auth`, `C115_request`, `C115_response`, `C115_signed`, `C115_unsigned`, `C116`, `C116_any`, `C116_live`, `C116_network`, `C116_safe`, `C117`, `C117_any`, `C117_live`, `C117_network`, `C117_replay`

## propext, Quot.sound (97 theorems)

`C01_bit_positions`, `C01_bits_roundtrip`, `C01_byte_roundtrip`, `C01_value`, `C03_wire`, `C05_wire32`, `C05_wire64`, `C19_tunnel_lost`, `C23_no_panic`, `C26`, `C27_next`, `C30`, `C30_total`, `C31`, `C33`, `C33_unforgeable`, `C33_verify`, `C34`, `C36`, `C37_aligned`, `C38_new`, `C39_one_each`, `C46_empty_fatal`, `C46_errors`, `C46_fatal`, `C46_final`, `C46_panic_fatal`, `C47_false`, `C47_never_catches_up`, `C47_progress`, `C48_false`, `C48_partial`, `node_eq`, `C51`, `C51_raises`, `C56_auth_not_faithful`, `C57_header`, `C57_same_length`, `C58_names`, `C59_terminates`, `C59_threads`, `C61_blocked`, `C61_unhindered`, `C64_exact_iff`, `C64_moves_by_size`, `C66_send`, `C68_new`, `C69`, `C69_agrees`, `C73`, `C73_waiting`, `C73_zero`, `C74`, `C74_final`, `C75_part`, `C76_one_each`, `C85_skip`, `C86_progress`, `C87`, `C87_rawend`, `C92`, `C93_crate`, `C94_buffer`, `C94_empty`, `C94_refused`, `C94_same`, `C94_unsigned`, `C95_same`, `C97_sends`, `C98`, `C98_python`, `C101`, `C101_caught`, `C101_crate`, `C101_cursor`, `C101_next`, `C101_overrun`, `C101_payload`, `C101_pure`, `C101_repeats`, `C101_twice`, `C101_whole`, `C104_half`, `C105_two`, `C107_owner`, `C109_handover`, `C109_scope`, `C110_handover`, `C112_calls`, `C113`, `C113_free`, `C113_lock`, `C113_lost`, `C113_panic`, `C113_parallel`, `C113_signing`, `C114_confused`

## propext (34 theorems)

`C04_varlen64`, `C07_read`, `C07_write`, `C08_ipv6`, `C10_length`, `C10_wire`, `C13`, `C14_length`, `C14_wire`, `C15_false`, `C23_signature`, `C27_header`, `C37`, `C38_checked`, `C38_no_panic`, `C38_publicKey`, `C49`, `C49_answers`, `C49_first`, `C49_later`, `C53_list`, `C57_address`, `C64_fails`, `C68_keys`, `C68_receive`, `C68_too_long`, `C68_view`, `C73_default`, `C86_both`, `C98_with`, `C109_owner`, `C112_race`, `C113_over`, `C113_stays`

## none (12 theorems)

`C02_decode`, `C02_encode_bits`, `C02_encode_injective`, `C02_roundtrip`, `C10_fields`, `C12_false`, `C23`, `C41_count`, `C53_hosts`, `C64_overshoot`, `C70`, `C94_copied`
