#!/usr/bin/env python3
"""Append the results of tools/mutate.py to seeded/LOG.jsonl: addlog.py results.out [tightened theorem ...]"""
import json, sys
with open('/verif/seeded/LOG.jsonl', 'a') as f:
    for line in open(sys.argv[1]):
        d = json.loads(line)
        if d.get('error'):
            continue
        f.write(json.dumps({'definition': d['definition'], 'edit': d['edit'], 'breaks': d['breaks'],
                            'failed': d['failed'], 'not_failed_expected': d.get('missed', []),
                            'tightened': d.get('tightened', sys.argv[2:])}) + '\n')
